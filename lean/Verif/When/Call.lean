import Verif.When.Done
import Verif.Sync.Asy
import Verif.Sync.Waits

/-!
# What a call of when_all / when_any does (proof infrastructure, no claims)
-/
namespace Itc
namespace When
open Core Sync
section
variable {α φ δ χ : Type} {U : WApp α φ δ χ} {u0 : δ} {f0 : φ} {s s' : WSt α φ δ}

theorem WS.grow {v : View} {d d' : WData δ} {rv : Val} {f : WFrame φ} {a : SAct (WTask α) (WFrame φ)} (h : WS v d rv f d' a) :
    ∃ es, d'.wlog = es ++ d.wlog := by
  cases h
  case relRet => exact ⟨[_], rfl⟩
  all_goals exact ⟨[], rfl⟩

theorem wlog_mem {l : Lbl χ} (hr : WR U u0 f0 s) (hs : step (client (whenApp U)) s l = some s') {e : WEv} (h : e ∈ s.data.ad.wlog) :
    e ∈ s'.data.ad.wlog := by
  cases l with
  | tick n => rw [step_tick _ s s' n hs]; exact h
  | th t ch =>
    rcases app_data hs with h1 | ⟨g, rest, sa, -, -, hA⟩
    · rw [h1]; exact h
    · generalize s'.data.ad = ad' at hA
      cases when_wc hA with
      | usr g u wa hU => exact h
      | wh f d' a hf hW => obtain ⟨es, he⟩ := hW.grow; rw [he]; simp [h]

/-- Context `c` was made by this call. -/
structure Kx (n0 : Nat) (any : Bool) (ins : List (Nat × Bool)) (ad : WData δ) (c : Nat) : Prop where
  le : n0 ≤ c
  lt : c < ad.nctx
  any : (ad.ctx c).any = any
  ins : (ad.ctx c).ins = ins

theorem Kx.mono {n0 c : Nat} {any : Bool} {ins : List (Nat × Bool)} {ad ad' : WData δ} (h : Kx n0 any ins ad c) (hg : Gr ad ad') : Kx n0 any ins ad' c :=
  ⟨h.le, Nat.lt_of_lt_of_le h.lt hg.n, (hg.any h.lt).trans h.any, (hg.ins h.lt).trans h.ins⟩

/-- The continuation of input number `j` with state `q` is attached. -/
def AttW (t c j q : Nat) (d : SData (WTask α)) : Prop :=
  ∃ p id, .attached t q p ∈ d.slog ∧ p < d.nst ∧ (d.st p).owner = .pkg ∧ (d.st p).req = some ⟨id, false, p, .wk c j q⟩

theorem AttW.mono {t c j q : Nat} {d d' : SData (WTask α)} (he : Ext d d') (h : AttW t c j q d) : AttW t c j q d' := by
  obtain ⟨p, id, h1, h2, h3, h4⟩ := h
  exact ⟨p, id, he.mem h1, Nat.lt_of_lt_of_le h2 he.nst, (he.owner h2).trans h3, (he.req h2).trans h4⟩

def AttTo (t c : Nat) (ins : List (Nat × Bool)) (k : Nat) (d : SData (WTask α)) : Prop := ∀ j q sh, j < k → ins[j]? = some (q, sh) → AttW t c j q d

theorem AttTo.mono {t c k : Nat} {ins : List (Nat × Bool)} {d d' : SData (WTask α)} (he : Ext d d') (h : AttTo t c ins k d) : AttTo t c ins k d' :=
  fun j q sh h1 h2 => (h j q sh h1 h2).mono he

def WPhI (U : WApp α φ δ χ) (u0 : δ) (f0 : φ) (t n0 : Nat) (rest : List (Fr (WTask α) (WFrame φ))) (any : Bool) (ins : List (Nat × Bool)) :
    WFrame φ → WSt α φ δ → Prop
  | .mkS c, s => Kx n0 any ins s.data.ad c ∧ ins = []
  | .mkG c, s => Kx n0 any ins s.data.ad c ∧ ins = []
  | .mkD c, s => Kx n0 any ins s.data.ad c ∧ ins = []
  | .wGet c l, s => Kx n0 any ins s.data.ad c ∧ l = ins
  | .wGot c l, s => Kx n0 any ins s.data.ad c ∧ l = ins
  | .wLoop c _ _ i l, s => Kx n0 any ins s.data.ad c ∧ AttTo t c ins i s.data.sd ∧ ins.drop i = l
  | .wNext c p id i l, s => Kx n0 any ins s.data.ad c ∧ AttTo t c ins i s.data.sd ∧ ins.drop (i + 1) = l ∧ ∃ q sh k, ins[i]? = some (q, sh) ∧
      Nest (client (whenApp U)) ({ ad := { u := u0 } } : Data (WTask α) (WData δ)) (.app (.usr f0)) t
        (.client (SApi.futThen (some q) k false true (.wk c i q)).entry) (.app (.wNext c p id i l)) rest s
  | .aIn c _, s => Kx n0 any ins s.data.ad c ∧ AttTo t c ins ins.length s.data.sd
  | .aSet c _, s => Kx n0 any ins s.data.ad c ∧ AttTo t c ins ins.length s.data.sd
  | .aUnl c r, s => (∃ e, r = .thr e) ∨ Kx n0 any ins s.data.ad c ∧ AttTo t c ins ins.length s.data.sd
  | .gGet c, s => Kx n0 any ins s.data.ad c ∧ AttTo t c ins ins.length s.data.sd
  | .gGot c, s => Kx n0 any ins s.data.ad c ∧ AttTo t c ins ins.length s.data.sd
  | .rel c r, s => (∃ e, r = .thr e) ∨ Kx n0 any ins s.data.ad c ∧ AttTo t c ins ins.length s.data.sd
  | .fin r, s => (∃ e, r = .thr e) ∨ ∃ c p, r = .ret p ∧ n0 ≤ c ∧ .returned t c any (ins.map (·.1)) p ∈ s.data.ad.wlog ∧
      AttTo t c ins ins.length s.data.sd
  | _, _ => False

def WPh (U : WApp α φ δ χ) (u0 : δ) (f0 : φ) (t n0 : Nat) (rest : List (Fr (WTask α) (WFrame φ))) (any : Bool) (l : List (Option Nat × Bool)) :
    SFrame (WTask α) (WFrame φ) → WSt α φ δ → Prop
  | .app (.wIn _ any' l'), s => any' = any ∧ l' = l ∧ n0 ≤ s.data.ad.nctx
  | .app f, s => ∃ ins, allSome l = some ins ∧ WPhI U u0 f0 t n0 rest any ins f s
  | _, _ => False

theorem WPh.of {t n0 : Nat} {rest : List (Fr (WTask α) (WFrame φ))} {any : Bool} {l : List (Option Nat × Bool)} {ins : List (Nat × Bool)} {f : WFrame φ}
    (h : allSome l = some ins) (hi : WPhI U u0 f0 t n0 rest any ins f s) : WPh U u0 f0 t n0 rest any l (.app f) s := by
  cases f <;> first | exact ⟨ins, h, hi⟩ | exact hi.elim

theorem wPh (t n0 : Nat) (any : Bool) (l : List (Option Nat × Bool)) (rest : List (Fr (WTask α) (WFrame φ))) :
    LPh (client (whenApp U)) ({ ad := { u := u0 } } : Data (WTask α) (WData δ)) (.app (.usr f0)) t rest (WPh U u0 f0 t n0 rest any l)
      (fun v s => ∃ ins c p, allSome l = some ins ∧ v = .nat p ∧ n0 ≤ c ∧ .returned t c any (ins.map (·.1)) p ∈ s.data.ad.wlog ∧
        AttTo t c ins ins.length s.data.sd) where
  mono {s s' f lb} hr hs h h1 h2 h3 := by
    have he := step_ext hs
    have hg := gr_step hr hs
    cases f <;> first | exact h.elim | skip
    rename_i f
    by_cases hf : ∃ tup any' l', f = .wIn tup any' l'
    · obtain ⟨tup, any', l', rfl⟩ := hf
      exact ⟨h.1, h.2.1, Nat.le_trans h.2.2 hg.n⟩
    · have h : ∃ ins, allSome l = some ins ∧ WPhI U u0 f0 t n0 rest any ins f s := by
        cases f <;> first | exact h | exact absurd ⟨_, _, _, rfl⟩ hf
      obtain ⟨ins, hi, h⟩ := h
      refine WPh.of hi ?_
      cases f <;> first | exact h.elim | exact ⟨h.1.mono hg, h.2⟩ | exact ⟨h.1.mono hg, h.2.mono he⟩ | skip
      case wLoop => exact ⟨h.1.mono hg, h.2.1.mono he, h.2.2⟩
      case wNext =>
        obtain ⟨h4, h5, h6, q, sh, k, h7, h8⟩ := h
        exact ⟨h4.mono hg, h5.mono he, h6, q, sh, k, h7, h8.mono hr hs h2 h3⟩
      case aUnl => exact h.imp id fun h => ⟨h.1.mono hg, h.2.mono he⟩
      case rel => exact h.imp id fun h => ⟨h.1.mono hg, h.2.mono he⟩
      case fin => exact h.imp id fun ⟨c, p, h1, h2, h3, h4⟩ => ⟨c, p, h1, h2, wlog_mem hr hs h3, h4.mono he⟩
  thr {s s' f e g ch} hr h hg hs hd := by
    cases f <;> first | exact h.elim | skip
    rename_i f
    simp only [client, sThrow, Option.map_eq_some_iff] at hg
    obtain ⟨g, hg, rfl⟩ := hg
    rcases when_throw hg with ⟨f, g', rfl, rfl⟩ | hg
    · obtain ⟨ins, hi, h⟩ := h; exact h.elim
    · cases f <;> simp only [wthrow, Option.some.injEq, reduceCtorEq] at hg <;> subst hg <;> obtain ⟨ins, hi, h⟩ := h <;>
        first | exact h.elim | exact .of hi (.inl ⟨_, rfl⟩)
  cl {s s' f ch d' x} hr hst hexc h hs hstep hdata := by
    have he := step_ext hs
    have hg := gr_step hr hs
    cases client_cs hstep with
    | sync f sd x hS => cases hS <;> exact h.elim
    | app g ad sa hA =>
      have hsd : s'.data.sd = s.data.sd := by rw [hdata]
      have had : s'.data.ad = ad := by rw [hdata]
      cases when_wc hA with
      | usr g u wa hU => obtain ⟨ins, hi, h⟩ := h; exact h.elim
      | wh f d' a hf hW =>
        have new : ∀ {tup : Bool} {ins : List (Nat × Bool)}, n0 ≤ s.data.ad.nctx →
            ad = { s.data.ad.upd s.data.ad.nctx (newCtx tup any ins) with nctx := s.data.ad.nctx + 1 } → Kx n0 any ins s'.data.ad s.data.ad.nctx := by
          intro tup ins h1 h2
          rw [had, h2]
          exact ⟨h1, Nat.lt_succ_self _, by simp [WData.upd, newCtx, Sync.set], by simp [WData.upd, newCtx, Sync.set]⟩
        clear hA hstep
        cases hW
        case wIn any' l' x ins h4 =>
          obtain ⟨rfl, rfl, h3⟩ := h
          exact fun _ => .of h4 ⟨new h3 rfl, rfl⟩
        case wInT any' l' x ins h4 =>
          obtain ⟨rfl, rfl, h3⟩ := h
          exact fun _ => .of h4 ⟨new h3 rfl, fun j q sh h => absurd h (Nat.not_lt_zero _), rfl⟩
        case wIn0 tup any' l' h4 =>
          obtain ⟨rfl, rfl, h3⟩ := h
          exact fun _ => .of h4 ⟨new h3 rfl, rfl⟩
        all_goals first | trivial | skip
        all_goals obtain ⟨ins, hi, h⟩ := h
        case loop c p id i q sh l x hx =>
          obtain ⟨h1, h2, h3⟩ := h
          refine fun hst' => .of hi ⟨h1.mono hg, h2.mono he, ?_, q, sh, _, ?_, .start (hr.step hs) hst'⟩
          · rw [← List.drop_drop, h3]; rfl
          · have := congrArg (·[0]?) h3
            simpa using this
        case next c p id i l x hx =>
          obtain ⟨h1, h2, h3, q, sh, k, h4, h5⟩ := h
          refine fun _ => .of hi ⟨h1.mono hg, ?_, h3⟩
          obtain ⟨s0, n, s1, l, s2, h6, h7, h8, h9, h10, h11, h12, -⟩ := h5.ended hst
          obtain ⟨p', -, h13, h14⟩ := then_att h6 h7 h8 h9 h10 (h12 ▸ hexc)
          intro j q' sh' hj hq'
          by_cases hji : j = i
          · subst hji
            rw [h4] at hq'
            cases hq'
            refine AttW.mono he (h11.ind (P := fun s : WSt α φ δ => AttW t c j q s.data.sd) (fun hs h => h.mono (step_ext hs)) ?_)
            exact ⟨p', k, h14, h13.2.1, h13.2.2.1, h13.2.2.2⟩
          · exact (h2.mono he) j q' sh' (by omega) hq'
        case loopAny =>
          obtain ⟨h1, h2, h3⟩ := h
          exact fun _ => .of hi ⟨h1.mono hg, fun j q sh _ hj => (h2.mono he) j q sh (by
            have := (List.getElem?_eq_some_iff.1 hj).1; have := List.drop_eq_nil_iff.1 h3; omega) hj⟩
        case loopAll =>
          obtain ⟨h1, h2, h3⟩ := h
          exact fun _ => .of hi (.inr ⟨h1.mono hg, fun j q sh _ hj => (h2.mono he) j q sh (by
            have := (List.getElem?_eq_some_iff.1 hj).1; have := List.drop_eq_nil_iff.1 h3; omega) hj⟩)
        case loopTup =>
          obtain ⟨h1, h2, h3⟩ := h
          exact fun _ => .of hi ⟨h1.mono hg, fun j q sh _ hj => (h2.mono he) j q sh (by
            have := (List.getElem?_eq_some_iff.1 hj).1; have := List.drop_eq_nil_iff.1 h3; omega) hj⟩
        case mkD =>
          obtain ⟨h1, rfl⟩ := h
          exact fun _ => .of hi (.inr ⟨h1.mono hg, fun j q sh h => absurd h (Nat.not_lt_zero _)⟩)
        case wGot =>
          exact fun _ => .of hi ⟨h.1.mono hg, fun j q sh h => absurd h (Nat.not_lt_zero _), h.2.symm⟩
        case relRet c p x hx ha =>
          have h := h.resolve_left (by rintro ⟨e, h⟩; cases h)
          have key : WPhI U u0 f0 t n0 rest any ins (.fin (.ret p)) s' := by
            refine .inr ⟨c, p, rfl, h.1.le, ?_, h.2.mono he⟩
            rw [had, ← h.1.any, ← h.1.ins]
            simp [St.view]
          rcases ha with ⟨-, rfl⟩ | rfl <;> exact fun _ => .of hi key
        case relThr c e x hx ha =>
          rcases ha with ⟨-, rfl⟩ | rfl <;> exact fun _ => .of hi (.inl ⟨_, rfl⟩)
        case finRet p =>
          obtain ⟨c, p', h1, h2, h3, h4⟩ := h.resolve_left (by rintro ⟨e, h⟩; cases h)
          cases h1
          exact ⟨ins, c, p, hi, rfl, h2, wlog_mem hr hs h3, h4.mono he⟩
        case aUnl c r hr' =>
          exact fun _ => .of hi (h.imp id fun h => ⟨h.1.mono hg, h.2.mono he⟩)
        case aUnlT c p hr' =>
          have h := h.resolve_left (by rintro ⟨e, h⟩; cases h)
          exact fun _ => .of hi ⟨h.1.mono hg, h.2.mono he⟩
        case aNo => exact fun _ => .of hi (.inr ⟨h.1.mono hg, h.2.mono he⟩)
        case aSet => exact fun _ => .of hi (.inr ⟨h.1.mono hg, h.2.mono he⟩)
        case gGot => exact fun _ => .of hi (.inr ⟨h.1.mono hg, h.2.mono he⟩)
        all_goals first
          | exact h.elim
          | exact fun _ => .of hi ⟨h.1.mono hg, h.2⟩
          | exact fun _ => .of hi ⟨h.1.mono hg, h.2.mono he⟩

end
end When
end Itc
