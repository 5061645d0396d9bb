import Verif.When.Model

/-!
# Case table of when_all / when_any (proof infrastructure, no claims)
-/
namespace Itc
namespace When
open Core Sync
section
variable {α φ δ χ : Type}

/-- The branches of `wstep`. -/
inductive WS (v : View) (d : WData δ) (rv : Val) : WFrame φ → WData δ → SAct (WTask α) (WFrame φ) → Prop
  | bad (f : WFrame φ) : WS v d rv f d .terminate
  | wIn (any : Bool) (l : List (Option Nat × Bool)) (x : Nat × Bool) (ins : List (Nat × Bool)) (h : allSome l = some (x :: ins)) :
      WS v d rv (.wIn false any l) { d.upd d.nctx (newCtx false any (x :: ins)) with nctx := d.nctx + 1 }
        (.sync (.promNew (pob d.nctx) false) (.wGet d.nctx (x :: ins)))
  | wInT (any : Bool) (l : List (Option Nat × Bool)) (x : Nat × Bool) (ins : List (Nat × Bool)) (h : allSome l = some (x :: ins)) :
      WS v d rv (.wIn true any l) { d.upd d.nctx (newCtx true any (x :: ins)) with nctx := d.nctx + 1 }
        (.sync (.promNew (pob d.nctx) false) (.wLoop d.nctx 0 0 0 (x :: ins)))
  | wIn0 (tup any : Bool) (l : List (Option Nat × Bool)) (h : allSome l = some []) :
      WS v d rv (.wIn tup any l) { d.upd d.nctx (newCtx tup any []) with nctx := d.nctx + 1 }
        (.sync (.promNew (pob d.nctx) false) (.mkS d.nctx))
  | mkS (c : Nat) : WS v d rv (.mkS c) d (.sync (.promSet (pob c) (.val (emptyVal (d.ctx c).any))) (.mkG c))
  | mkG (c : Nat) : WS v d rv (.mkG c) d (.sync (.getFuture (pob c)) (.mkD c))
  | mkD (c p : Nat) (h : rv = .nat p) : WS v d rv (.mkD c) d (.goto (.rel c (.ret p)))
  | wGet (c : Nat) (l : List (Nat × Bool)) : WS v d rv (.wGet c l) d (.sync (.getFuture (pob c)) (.wGot c l))
  | wGot (c : Nat) (l : List (Nat × Bool)) (p : Nat) (h : rv = .nat p) : WS v d rv (.wGot c l) d (.goto (.wLoop c p v.id 0 l))
  | loopAny (c p id i : Nat) (h : (d.ctx c).any = true) : WS v d rv (.wLoop c p id i []) d (.sync (.lock (pob c)) (.aIn c p))
  | loopAll (c p id i : Nat) (h : (d.ctx c).any = false) (h' : (d.ctx c).tup = false) : WS v d rv (.wLoop c p id i []) d (.goto (.rel c (.ret p)))
  | loopTup (c p id i : Nat) (h : (d.ctx c).any = false) (h' : (d.ctx c).tup = true) : WS v d rv (.wLoop c p id i []) d (.goto (.gGet c))
  | loop (c p id i q : Nat) (sh : Bool) (l : List (Nat × Bool)) (x : Ctx) (hx : x = { d.ctx c with
        slots := if (d.ctx c).tup then (d.ctx c).slots.set i (if sh then some q else none)
          else (d.ctx c).slots ++ [if sh then some q else none]
        states := if (d.ctx c).any && !(d.ctx c).tup then (d.ctx c).states ++ [q] else (d.ctx c).states
        refs := (d.ctx c).refs + 1
        made := (d.ctx c).made ++ [i] }) : WS v d rv (.wLoop c p id i ((q, sh) :: l)) (d.upd c x)
          (.sync (.futThen (some q) (if (d.ctx c).tup then v.id else id) false true (.wk c i q)) (.wNext c p id i l))
  | next (c p id i : Nat) (l : List (Nat × Bool)) (x : Ctx)
      (hx : x = { d.ctx c with processed := (d.ctx c).processed + if (d.ctx c).any then 1 else 0 }) :
      WS v d rv (.wNext c p id i l) (d.upd c x) (.goto (.wLoop c p id (i + 1) l))
  | aIn (c p : Nat) (x : Ctx) (h : (d.ctx c).ready ≠ 0) (hp : (d.ctx c).pset = false)
      (hx : x = { d.ctx c with slots := recover (d.ctx c).slots (d.ctx c).states }) :
      WS v d rv (.aIn c p) (d.upd c x) (.sync (.promSet (pob c) (.val x.value)) (.aSet c p))
  | aNo (c p : Nat) (h : ¬ ((d.ctx c).ready ≠ 0 ∧ (d.ctx c).pset = false)) : WS v d rv (.aIn c p) d (.goto (.aUnl c (.ret p)))
  | aSet (c p : Nat) (x : Ctx) (hx : x = { d.ctx c with pset := true }) : WS v d rv (.aSet c p) (d.upd c x) (.goto (.aUnl c (.ret p)))
  | aUnl (c : Nat) (r : Fin) (h : (d.ctx c).tup = false ∨ ∃ e, r = .thr e) : WS v d rv (.aUnl c r) d (.sync (.unlock (pob c)) (.rel c r))
  | aUnlT (c p : Nat) (h : (d.ctx c).tup = true) : WS v d rv (.aUnl c (.ret p)) d (.sync (.unlock (pob c)) (.gGet c))
  | gGet (c : Nat) : WS v d rv (.gGet c) d (.sync (.getFuture (pob c)) (.gGot c))
  | gGot (c p : Nat) (h : rv = .nat p) : WS v d rv (.gGot c) d (.goto (.rel c (.ret p)))
  | relRet (c p : Nat) (x : Ctx) (a : SAct (WTask α) (WFrame φ))
      (hx : x = { d.ctx c with rel := (d.ctx c).rel + 1, refs := (d.ctx c).refs - 1 })
      (ha : x.refs = 0 ∧ a = .sync (.promDtor (pob c)) (.fin (.ret p)) ∨ a = .goto (.fin (.ret p))) :
      WS v d rv (.rel c (.ret p)) { d.upd c x with wlog := .returned v.tid c (d.ctx c).any ((d.ctx c).ins.map (·.1)) p :: d.wlog } a
  | relThr (c : Nat) (e : Exn) (x : Ctx) (a : SAct (WTask α) (WFrame φ))
      (hx : x = { d.ctx c with rel := (d.ctx c).rel + 1, abort := true, refs := (d.ctx c).refs - 1 })
      (ha : x.refs = 0 ∧ a = .sync (.promDtor (pob c)) (.fin (.thr e)) ∨ a = .goto (.fin (.thr e))) :
      WS v d rv (.rel c (.thr e)) (d.upd c x) a
  | finRet (p : Nat) : WS v d rv (.fin (.ret p)) d (.ret (.nat p))
  | finThr (e : Exn) : WS v d rv (.fin (.thr e)) d (.throw e)
  | kIn (c i q : Nat) : WS v d rv (.kIn c i q) d (.sync (.lock (pob c)) (.kBody c i q))
  | kWin (c i q : Nat) (x : Ctx) (h : (d.ctx c).any = true) (hr : (d.ctx c).ready = 0) (hp : (d.ctx c).processed = (d.ctx c).total)
      (hs : (d.ctx c).pset = false) (hx : x = { d.ctx c with index := i, ready := 1, slots := recover ((d.ctx c).slots.set i (some q)) (d.ctx c).states, done := (d.ctx c).done ++ [i] }) :
      WS v d rv (.kBody c i q) (d.upd c x) (.sync (.promSet (pob c) (.val x.value)) (.kSet c i))
  | kFirst (c i q : Nat) (x : Ctx) (h : (d.ctx c).any = true) (hr : (d.ctx c).ready = 0)
      (hn : ¬ ((d.ctx c).processed = (d.ctx c).total ∧ (d.ctx c).pset = false)) (hx : x = { d.ctx c with index := i, ready := 1, slots := (d.ctx c).slots.set i (some q), done := (d.ctx c).done ++ [i] }) :
      WS v d rv (.kBody c i q) (d.upd c x) (.goto (.kUnl c i))
  | kLate (c i q : Nat) (x : Ctx) (h : (d.ctx c).any = true) (hr : (d.ctx c).ready ≠ 0)
      (hx : x = { d.ctx c with done := (d.ctx c).done ++ [i] }) : WS v d rv (.kBody c i q) (d.upd c x) (.goto (.kUnl c i))
  | kLast (c i q : Nat) (x : Ctx) (h : (d.ctx c).any = false) (hr : x.ready = x.total) (hx : x = { d.ctx c with slots := (d.ctx c).slots.set i (some q), ready := (d.ctx c).ready + 1, done := (d.ctx c).done ++ [i] }) :
      WS v d rv (.kBody c i q) (d.upd c x) (.sync (.promSet (pob c) (.val x.value)) (.kAll c i))
  | kOne (c i q : Nat) (x : Ctx) (h : (d.ctx c).any = false) (hr : x.ready ≠ x.total) (hx : x = { d.ctx c with slots := (d.ctx c).slots.set i (some q), ready := (d.ctx c).ready + 1, done := (d.ctx c).done ++ [i] }) :
      WS v d rv (.kBody c i q) (d.upd c x) (.goto (.kUnl c i))
  | kSet (c i : Nat) (x : Ctx) (hx : x = { d.ctx c with pset := true }) : WS v d rv (.kSet c i) (d.upd c x) (.goto (.kUnl c i))
  | kAll (c i : Nat) : WS v d rv (.kAll c i) d (.goto (.kUnl c i))
  | kUnl (c i : Nat) : WS v d rv (.kUnl c i) d (.sync (.unlock (pob c)) (.kEnd c i))
  | kEnd (c i : Nat) (x : Ctx) (hx : x = { d.ctx c with ended := (d.ctx c).ended ++ [i] }) : WS v d rv (.kEnd c i) (d.upd c x) (.ret .unit)
  | kThr (c i : Nat) (e : Exn) (x : Ctx) (hx : x = { d.ctx c with failed := (d.ctx c).failed ++ [i] }) :
      WS v d rv (.kThr c i e) (d.upd c x) (.sync (.unlock (pob c)) (.kFin e))
  | kFin (e : Exn) : WS v d rv (.kFin e) d (.throw e)
  | dIn (c i q : Nat) (x : Ctx) (a : SAct (WTask α) (WFrame φ))
      (hx : x = { d.ctx c with freed := (d.ctx c).freed ++ [i], refs := (d.ctx c).refs - 1 })
      (ha : x.refs = 0 ∧ a = .sync (.promDtor (pob c)) .dEnd ∨ a = .goto .dEnd) : WS v d rv (.dIn c i q) (d.upd c x) a
  | dEnd : WS v d rv .dEnd d (.ret .unit)

theorem wstep_ws (v : View) (d : WData δ) (rv : Val) (f : WFrame φ) (hf : ∀ g, f ≠ .usr g) :
    WS v d rv f (wstep (α := α) v d rv f).1 (wstep (α := α) v d rv f).2 := by
  cases f with
  | usr g => exact absurd rfl (hf g)
  | wIn tup any l =>
    simp only [wstep]
    split
    · exact .bad _
    · rename_i ins h
      cases ins with
      | nil => exact .wIn0 _ _ _ h
      | cons x ins => cases tup <;> first | exact .wIn _ _ _ _ h | exact .wInT _ _ _ _ h
  | mkD c => simp only [wstep]; split <;> first | exact .mkD _ _ rfl | exact .bad _
  | wGot c => simp only [wstep]; split <;> first | exact .wGot _ _ _ rfl | exact .bad _
  | wLoop c p id i l =>
    cases l with
    | nil =>
      simp only [wstep]
      split
      · exact .loopAny _ _ _ _ ‹_›
      · rename_i h
        split
        · exact .loopTup _ _ _ _ (by simpa using h) ‹_›
        · rename_i h'; exact .loopAll _ _ _ _ (by simpa using h) (by simpa using h')
    | cons x l => exact .loop _ _ _ _ _ _ _ _ rfl
  | wNext c p id i l => exact .next _ _ _ _ _ _ rfl
  | aIn c p =>
    simp only [wstep]
    split
    · rename_i h; exact .aIn _ _ _ h.1 h.2 rfl
    · exact .aNo _ _ ‹_›
  | aSet c p => exact .aSet _ _ _ rfl
  | aUnl c r =>
    cases r with
    | ret p =>
      simp only [wstep]
      split
      · exact .aUnlT _ _ ‹_›
      · rename_i h; exact .aUnl _ _ (.inl (by simpa using h))
    | thr e => exact .aUnl _ _ (.inr ⟨_, rfl⟩)
  | gGot c => simp only [wstep]; split <;> first | exact .gGot _ _ rfl | exact .bad _
  | rel c r =>
    cases r with
    | ret p =>
      simp only [wstep, release]
      refine .relRet _ _ _ _ rfl ?_
      split
      · exact .inl ⟨‹_›, rfl⟩
      · exact .inr rfl
    | thr e =>
      simp only [wstep, release]
      refine .relThr _ _ _ _ rfl ?_
      split
      · exact .inl ⟨‹_›, rfl⟩
      · exact .inr rfl
  | fin r => cases r <;> constructor
  | kBody c i q =>
    simp only [wstep]
    by_cases h : (d.ctx c).any = true
    · rw [if_pos h]
      by_cases hr : (d.ctx c).ready = 0
      · rw [if_pos hr]
        split
        · rename_i hn; exact .kWin _ _ _ _ h hr hn.1 hn.2 rfl
        · rename_i hn; exact .kFirst _ _ _ _ h hr hn rfl
      · rw [if_neg hr]; exact .kLate _ _ _ _ h hr rfl
    · rw [if_neg h]
      dsimp only
      split
      · exact .kLast _ _ _ _ (by simpa using h) ‹_› rfl
      · exact .kOne _ _ _ _ (by simpa using h) ‹_› rfl
  | kSet c i => exact .kSet _ _ _ rfl
  | kEnd c i => exact .kEnd _ _ _ rfl
  | kThr c i e => exact .kThr _ _ _ _ rfl
  | dIn c i q =>
    simp only [wstep, release]
    refine .dIn _ _ _ _ _ rfl ?_
    split
    · exact .inl ⟨‹_›, rfl⟩
    · exact .inr rfl
  | _ => constructor

/-- A step is a step of the user code or of when_all / when_any. -/
inductive WC (U : WApp α φ δ χ) (v : View) (d : WData δ) (rv : Val) (ch : Ch χ) : WFrame φ → WData δ → SAct (WTask α) (WFrame φ) → Prop
  | usr (g : φ) (u : δ) (a : WAct α φ) (h : U.step v d.u g rv ch = some (u, a)) : WC U v d rv ch (.usr g) { d with u := u } (liftW a)
  | wh (f : WFrame φ) (d' : WData δ) (a : SAct (WTask α) (WFrame φ)) (hf : ∀ g, f ≠ .usr g) (h : WS v d rv f d' a) : WC U v d rv ch f d' a

theorem when_wc {U : WApp α φ δ χ} {v : View} {d d' : WData δ} {rv : Val} {ch : Ch χ} {f : WFrame φ} {a : SAct (WTask α) (WFrame φ)}
    (h : (whenApp U).step v d f rv ch = some (d', a)) : WC U v d rv ch f d' a := by
  by_cases hf : ∃ g, f = .usr g
  · obtain ⟨g, rfl⟩ := hf
    simp only [whenApp] at h
    split at h
    · contradiction
    · simp only [Option.some.injEq, Prod.mk.injEq] at h
      obtain ⟨rfl, rfl⟩ := h
      exact .usr _ _ _ ‹_›
  · have hf' : ∀ g, f ≠ .usr g := fun g hg => hf ⟨g, hg⟩
    have h' : ch = .go ∧ wstep (α := α) v d rv f = (d', a) := by
      cases f <;> first | exact absurd rfl (hf' _) | skip
      all_goals
        simp only [whenApp] at h
        split at h
        · exact ⟨rfl, Option.some.inj h⟩
        · contradiction
    have := wstep_ws (α := α) v d rv f hf'
    rw [h'.2] at this
    exact .wh _ _ _ hf' this

theorem when_throw {U : WApp α φ δ χ} {f f' : WFrame φ} {e : Exn} (h : (whenApp U).onThrow f e = some f') :
    (∃ g g', f = .usr g ∧ f' = .usr g') ∨ wthrow f e = some f' := by
  cases f
  case usr g =>
    simp only [whenApp, Option.map_eq_some_iff] at h
    obtain ⟨g', -, rfl⟩ := h
    exact .inl ⟨g, g', rfl, rfl⟩
  all_goals exact .inr h

end
end When
end Itc
