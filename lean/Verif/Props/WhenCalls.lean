import Verif.Props.When
import Verif.Props.Function
import Verif.When.Call

/-!
# C38, C39: calls of when_all and when_any, from the call to the result

`C38_all` … `C39_complete` speak about the result of when_all / when_any by means of the ghost log of the model. The theorems here start from a call and use
only what the caller sees (the future returned), the events of the continuations that were attached to the inputs, and the states.
-/
namespace Itc
open Core Sync When
section
variable {α φ δ χ : Type} {U : WApp α φ δ χ} {u0 : δ} {f0 : φ} {s s' s0 : WSt α φ δ}

theorem ws_ended {v : View} {d d' : WData δ} {rv : Val} {f : WFrame φ} {a : SAct (WTask α) (WFrame φ)} (h : WS v d rv f d' a) {c i : Nat} (hc : c < d.nctx)
    (hf : i ∈ (d.ctx c).ended) : i ∈ (d'.ctx c).ended := by
  cases h <;> first | exact hf | (subst_vars; simp only [WData.upd, ctx_set]; grind)

theorem ended_mono {l : Lbl χ} (hs : step (client (whenApp U)) s l = some s') {c i : Nat} (hc : c < s.data.ad.nctx)
    (hf : i ∈ (s.data.ad.ctx c).ended) : i ∈ (s'.data.ad.ctx c).ended := by
  cases l with
  | tick n => rw [step_tick _ s s' n hs]; exact hf
  | th t ch =>
    rcases app_data hs with h1 | ⟨g, rest, sa, -, -, hA⟩
    · rw [h1]; exact hf
    · generalize s'.data.ad = ad' at hA
      cases when_wc hA with
      | usr g u wa hU => exact hf
      | wh f d' a hf' hW => exact ws_ended hW hc hf

/-- The frames of a call of the lambda for input `i` of context `c`. -/
def KPh (c i : Nat) : SFrame (WTask α) (WFrame φ) → WSt α φ δ → Prop
  | .app (.kIn c' i' _), _ => c' = c ∧ i' = i
  | .app (.kBody c' i' _), _ => c' = c ∧ i' = i
  | .app (.kSet c' i'), _ => c' = c ∧ i' = i
  | .app (.kAll c' i'), _ => c' = c ∧ i' = i
  | .app (.kUnl c' i'), _ => c' = c ∧ i' = i
  | .app (.kEnd c' i'), _ => c' = c ∧ i' = i
  | .app (.kThr _ _ _), _ => True
  | .app (.kFin _), _ => True
  | _, _ => False

theorem kPh (t c i : Nat) (rest : List (Fr (WTask α) (WFrame φ))) :
    LPh (client (whenApp U)) ({ ad := { u := u0 } } : Data (WTask α) (WData δ)) (.app (.usr f0)) t rest (KPh c i)
      (fun _ s => i ∈ (s.data.ad.ctx c).ended) where
  mono {s s' f l} hr hs h h1 h2 h3 := by
    cases f <;> first | exact h.elim | skip
    rename_i f
    cases f <;> exact h
  thr {s s' f e g ch} hr h hg hs hd := by
    cases f <;> first | exact h.elim | skip
    rename_i f
    simp only [client, sThrow, Option.map_eq_some_iff] at hg
    obtain ⟨g, hg, rfl⟩ := hg
    rcases when_throw hg with ⟨f, g', rfl, rfl⟩ | hg
    · exact h.elim
    · cases f <;> simp only [wthrow, Option.some.injEq, reduceCtorEq] at hg <;> subst hg <;> first | exact h.elim | trivial
  cl {s s' f ch d' x} hr hst hexc h hs hstep hdata := by
    cases client_cs hstep with
    | sync f sd x hS => cases hS <;> exact h.elim
    | app g ad sa hA =>
      have had : s'.data.ad = ad := by rw [hdata]
      cases when_wc hA with
      | usr g u wa hU => exact h.elim
      | wh f d' a hf hW =>
        clear hA hstep hdata
        cases hW <;> first | exact h.elim | exact fun _ => h | exact fun _ => trivial | trivial | skip
        case kEnd c' i' x hx =>
          obtain ⟨rfl, rfl⟩ := h
          show i' ∈ (s'.data.ad.ctx c').ended
          rw [had, hx]; simp [WData.upd]

/-- The continuation `p` of input `i` of context `c` has run and returned. -/
theorem ran_ended (hr : WR U u0 f0 s) {t p c i q : Nat} {v : Val} (h : .bodyRet t p v ∈ s.data.sd.slog) (ho : (s.data.sd.st p).owner = .pkg)
    {id : Nat} {as : Bool} (hq : (s.data.sd.st p).req = some ⟨id, as, p, .wk c i q⟩) : i ∈ (s.data.ad.ctx c).ended := by
  obtain ⟨a, ⟨s1, n, s2, l, s3, rest, h1, h2, h3, h4, h5, h6, h7, h8⟩, hg⟩ := C37_returned hr h
  obtain ⟨k', hk, rfl⟩ := hg ho
  rw [hq] at hk
  cases hk
  have h9 := (kPh t c i _).fin h1 h2 ⟨rfl, rfl⟩ h3 h4 h5 h6
  have hc : c < s1.data.ad.nctx := ((wt_ok h1).fr t (.client (.app (.kIn c i q))) (h2 ▸ List.mem_cons_self)).1.1
  have hc3 : c < s3.data.ad.nctx :=
    Nat.lt_of_lt_of_le hc ((h3.later.snoc h4).ind (P := fun x => WR U u0 f0 x ∧ s1.data.ad.nctx ≤ x.data.ad.nctx)
      (fun hs h => ⟨h.1.step hs, Nat.le_trans h.2 (gr_step h.1 hs).n⟩) ⟨h1, Nat.le_refl _⟩).2
  exact (h8.ind (P := fun x => WR U u0 f0 x ∧ c < x.data.ad.nctx ∧ i ∈ (x.data.ad.ctx c).ended)
    (fun hs h => ⟨h.1.step hs, Nat.lt_of_lt_of_le h.2.1 (gr_step h.1 hs).n, ended_mono hs h.2.1 h.2.2⟩)
    ⟨(h3.reach h1).step h4, hc3, h9⟩).2.2

theorem allSome_map : ∀ {l : List (Option Nat × Bool)} {ins : List (Nat × Bool)}, allSome l = some ins → l = ins.map fun x => (some x.1, x.2)
  | [], ins, h => by cases h; rfl
  | (none, b) :: l, ins, h => by cases h
  | (some q, b) :: l, ins, h => by
    simp only [allSome, Option.map_eq_some_iff] at h
    obtain ⟨x, h1, rfl⟩ := h
    rw [allSome_map h1]
    rfl

/-- Continuation number `i`, with state `k`, of the call number `c` of when_all / when_any by thread `t`: it is attached to the input `q`. -/
def ContAt (t c i q k : Nat) (d : SData (WTask α)) : Prop :=
  .attached t q k ∈ d.slog ∧ (d.st k).owner = .pkg ∧ ∃ id, (d.st k).req = some ⟨id, false, k, .wk c i q⟩

/-- What a call of when_all / when_any has done when it returns normally: the inputs were valid, a continuation is attached to each of them, and the
    future of a fresh context is returned. -/
theorem when_call (hr : WR U u0 f0 s0) {t n : Nat} {tup any : Bool} {l : List (Option Nat × Bool)} {rest : List (Fr (WTask α) (WFrame φ))}
    (hst : s0.stk t = .client (.app (.wIn tup any l)) :: rest) (hf : Frag (client (whenApp U)) t rest s0 n s) {lb : Lbl χ}
    (hs : step (client (whenApp U)) s lb = some s') (hend : s'.stk t = rest) (hexc : (s'.thr t).exc = none) :
    ∃ (ins : List Nat) (c p : Nat) (ks : Nat → Nat), l.map (·.1) = ins.map some ∧ (s'.thr t).rv = .nat p ∧
      .returned t c any ins p ∈ s'.data.ad.wlog ∧ ∀ i q, ins[i]? = some q → ks i < s'.data.sd.nst ∧ ContAt t c i q (ks i) s'.data.sd := by
  obtain ⟨ins, c, p, h1, h2, h3, h4, h5⟩ := (wPh t s0.data.ad.nctx any l rest).fin hr hst ⟨rfl, rfl, Nat.le_refl _⟩ hf hs hend hexc
  have key : ∀ i, ∃ k, ∀ q, (ins.map (·.1))[i]? = some q → k < s'.data.sd.nst ∧ ContAt t c i q k s'.data.sd := by
    intro i
    cases hi : ins[i]? with
    | none => exact ⟨0, fun q h => by simp [List.getElem?_map, hi] at h⟩
    | some x =>
      obtain ⟨k, id, g1, g2, g3, g4⟩ := h5 i x.1 x.2 (List.getElem?_eq_some_iff.1 hi).1 hi
      refine ⟨k, fun q h => ?_⟩
      simp only [List.getElem?_map, hi, Option.map_some, Option.some.injEq] at h
      subst h
      exact ⟨g2, g1, g3, id, g4⟩
  obtain ⟨ks, hks⟩ := Classical.axiomOfChoice key
  refine ⟨ins.map (·.1), c, p, ks, ?_, h2, h4, hks⟩
  rw [allSome_map h1, List.map_map, List.map_map]
  rfl

/-- What is used of the states after the call. -/
theorem later_call (hr : WR U u0 f0 s) (hl : Later (client (whenApp U)) s s') {e : WEv} (he : e ∈ s.data.ad.wlog) :
    WR U u0 f0 s' ∧ e ∈ s'.data.ad.wlog ∧ Ext s.data.sd s'.data.sd :=
  hl.ind (P := fun x => WR U u0 f0 x ∧ e ∈ x.data.ad.wlog ∧ Ext s.data.sd x.data.sd)
    (fun hs h => ⟨h.1.step hs, wlog_mem h.1 hs h.2.1, h.2.2.trans (step_ext hs)⟩) ⟨hr, he, .refl _⟩

/-- **C38.** From a call of when_all (`tup`: the variadic version) that returns normally: every input was a valid future; the call has attached one
    continuation to each of them. In every later state the future returned was made ready at most once; if it is ready then every input is ready and it holds
    exactly the inputs, in order (or broken_promise, if a thread has discarded a continuation without running it); and if all those continuations have
    returned, then it does hold exactly the inputs, in order. -/
theorem C38_call (hr : WR U u0 f0 s0) {t n : Nat} {tup : Bool} {l : List (Option Nat × Bool)} {rest : List (Fr (WTask α) (WFrame φ))}
    (hst : s0.stk t = .client (.app (.wIn tup false l)) :: rest) (hf : Frag (client (whenApp U)) t rest s0 n s) {lb : Lbl χ}
    (hs : step (client (whenApp U)) s lb = some s') (hend : s'.stk t = rest) (hexc : (s'.thr t).exc = none) :
    ∃ (ins : List Nat) (c p : Nat) (ks : Nat → Nat), l.map (·.1) = ins.map some ∧ (s'.thr t).rv = .nat p ∧
      (∀ i q, ins[i]? = some q → ContAt t c i q (ks i) s'.data.sd) ∧
      ∀ s1, Later (client (whenApp U)) s' s1 → satCount s1.data.sd.slog p ≤ 1 ∧
        ((s1.data.sd.st p).status ≠ .notSet → AllReady s1.data.sd ins ∧
          (Holds (s1.data.sd.st p) (.val (.ids (exactly ins))) ∨ Holds (s1.data.sd.st p) (.exn .brokenPromise))) ∧
        ((∀ i < ins.length, ∃ u v, .bodyRet u (ks i) v ∈ s1.data.sd.slog) → Holds (s1.data.sd.st p) (.val (.ids (exactly ins)))) := by
  obtain ⟨ins, c, p, ks, h1, h2, h3, h4⟩ := when_call hr hst hf hs hend hexc
  refine ⟨ins, c, p, ks, h1, h2, fun i q h => (h4 i q h).2, fun s1 hl => ?_⟩
  obtain ⟨hr1, h5, he⟩ := later_call ((hf.reach hr).step hs) hl h3
  obtain ⟨h6, h7⟩ := C38_all (ls := []) hr1 rfl h5
  refine ⟨h6, h7, fun hall => ?_⟩
  by_cases hne : ins = []
  · subst hne; exact C38_empty hr1 h5
  refine C38_complete hr1 h5 hne fun i hi => ?_
  obtain ⟨u, v, h8⟩ := hall i hi
  obtain ⟨g1, g2, g3, id, g4⟩ := h4 i ins[i] (List.getElem?_eq_getElem hi)
  exact ran_ended hr1 h8 ((he.owner g1).trans g3) ((he.req g1).trans g4)

/-- **C39.** From a call of when_any that returns normally: every input was a valid future; the call has attached one continuation to each of them. In
    every later state the future returned was made ready at most once. If there are no inputs, it is ready with the index `size_t(-1)`. Else, if it is ready,
    some input is ready, and it holds exactly the inputs, in order, with the index of a ready input (or broken_promise, if the continuations were discarded);
    and if one of those continuations has returned (and none has thrown), then it does so. -/
theorem C39_call (hr : WR U u0 f0 s0) {t n : Nat} {tup : Bool} {l : List (Option Nat × Bool)} {rest : List (Fr (WTask α) (WFrame φ))}
    (hst : s0.stk t = .client (.app (.wIn tup true l)) :: rest) (hf : Frag (client (whenApp U)) t rest s0 n s) {lb : Lbl χ}
    (hs : step (client (whenApp U)) s lb = some s') (hend : s'.stk t = rest) (hexc : (s'.thr t).exc = none) :
    ∃ (ins : List Nat) (c p : Nat) (ks : Nat → Nat), l.map (·.1) = ins.map some ∧ (s'.thr t).rv = .nat p ∧
      (∀ i q, ins[i]? = some q → ContAt t c i q (ks i) s'.data.sd) ∧
      ∀ s1, Later (client (whenApp U)) s' s1 → satCount s1.data.sd.slog p ≤ 1 ∧
        (ins = [] → Holds (s1.data.sd.st p) (.val (.anyRes none []))) ∧
        (ins ≠ [] → (s1.data.sd.st p).status ≠ .notSet → ∃ i q, ins[i]? = some q ∧ (s1.data.sd.st q).status ≠ .notSet ∧
          (Holds (s1.data.sd.st p) (.val (.anyRes (some i) (exactly ins))) ∨ Holds (s1.data.sd.st p) (.exn .brokenPromise))) ∧
        (∀ i < ins.length, ∀ u v, .bodyRet u (ks i) v ∈ s1.data.sd.slog → (s1.data.ad.ctx c).failed = [] →
          ∃ j q, ins[j]? = some q ∧ (s1.data.sd.st q).status ≠ .notSet ∧ Holds (s1.data.sd.st p) (.val (.anyRes (some j) (exactly ins)))) := by
  obtain ⟨ins, c, p, ks, h1, h2, h3, h4⟩ := when_call hr hst hf hs hend hexc
  refine ⟨ins, c, p, ks, h1, h2, fun i q h => (h4 i q h).2, fun s1 hl => ?_⟩
  obtain ⟨hr1, h5, he⟩ := later_call ((hf.reach hr).step hs) hl h3
  obtain ⟨h6, h7⟩ := C39_any (ls := []) hr1 rfl h5
  refine ⟨h6, fun h => ?_, h7, fun i hi u v h8 hno => ?_⟩
  · subst h; exact C39_empty hr1 h5
  · obtain ⟨g1, g2, g3, id, g4⟩ := h4 i ins[i] (List.getElem?_eq_getElem hi)
    exact C39_complete hr1 h5 (by rintro rfl; simp at hi) (ran_ended hr1 h8 ((he.owner g1).trans g3) ((he.req g1).trans g4)) hno

end
/-- A call in a concrete execution (`fragRun`), its last step, and a later state. -/
theorem wfragWit {β : Type} {l : List (WAct Nat Nat)} {ls1 ls2 ls3 : List (Lbl Unit)} {lb : Lbl Unit}
    {t : Nat} {g : Fr (WTask Nat) (WFrame Nat)} {rest : List (Fr (WTask Nat) (WFrame Nat))} {obs : DWSt → DWSt → β} {b : β}
    (h : ((wexec l ls1).bind fun s0 => if s0.stk t = g :: rest then
        (fragRun (client (whenApp (tableW l))) t rest s0 0 ls2).bind fun p =>
          (step (client (whenApp (tableW l))) p.2 lb).bind fun s' => (run (client (whenApp (tableW l))) s' ls3).map fun s1 => obs s' s1 else none) = some b) :
    ∃ s0 n s s' s1, WR (tableW l) () 1 s0 ∧ s0.stk t = g :: rest ∧ Frag (client (whenApp (tableW l))) t rest s0 n s ∧
      step (client (whenApp (tableW l))) s lb = some s' ∧ Later (client (whenApp (tableW l))) s' s1 ∧ obs s' s1 = b := by
  obtain ⟨s0, h0, h⟩ := Option.bind_eq_some_iff.1 h
  split at h
  · rename_i hst
    obtain ⟨⟨n, s⟩, h1, h⟩ := Option.bind_eq_some_iff.1 h
    obtain ⟨s', h2, h⟩ := Option.bind_eq_some_iff.1 h
    obtain ⟨s1, h3, h4⟩ := Option.map_eq_some_iff.1 h
    exact ⟨s0, n, s, s', s1, ⟨ls1, h0⟩, hst, fragRun_sound ls2 (Frag.here g hst) h1, h2, ⟨ls3, h3⟩, h4⟩
  · contradiction

set_option synthInstance.maxSize 1024 in
set_option synthInstance.maxHeartbeats 400000 in
/-- `C38_call`: when_all for two promises; in the later state both continuations have returned. -/
example : ∃ s0 n s s' s1 : _, WR (tableW demoAll) () 1 s0 ∧
    s0.stk 0 = .client (.app (.wIn false false [(some 0, false), (some 1, true)])) :: [.client (.app (.usr 5))] ∧
    Frag (client (whenApp (tableW demoAll))) 0 [.client (.app (.usr 5))] s0 n s ∧ step (client (whenApp (tableW demoAll))) s (.th 0 .go) = some s' ∧
    Later (client (whenApp (tableW demoAll))) s' s1 ∧
    (decide (s'.stk 0 = [.client (.app (.usr 5))]), (s'.thr 0).exc, (s'.thr 0).rv, decide (.attached 0 0 3 ∈ s'.data.sd.slog ∧ .attached 0 1 4 ∈ s'.data.sd.slog),
      decide (.bodyRet 0 3 .unit ∈ s1.data.sd.slog ∧ .bodyRet 0 4 .unit ∈ s1.data.sd.slog), (s1.data.sd.st 2).value) =
      (true, none, .nat 2, true, true, some (.ids [1, 2])) :=
  wfragWit (l := demoAll) (ls1 := go 0 9) (ls2 := go 0 17) (ls3 := go 0 81)
    (obs := fun s' s1 => (decide (s'.stk 0 = [.client (.app (.usr 5))]), (s'.thr 0).exc, (s'.thr 0).rv,
      decide (.attached 0 0 3 ∈ s'.data.sd.slog ∧ .attached 0 1 4 ∈ s'.data.sd.slog),
      decide (.bodyRet 0 3 .unit ∈ s1.data.sd.slog ∧ .bodyRet 0 4 .unit ∈ s1.data.sd.slog), (s1.data.sd.st 2).value)) (by decide +kernel)

set_option synthInstance.maxSize 1024 in
set_option synthInstance.maxHeartbeats 400000 in
/-- `C39_call`: when_any for two promises; in the later state the continuation of the second one has returned. -/
example : ∃ s0 n s s' s1 : _, WR (tableW demoAnyEnd) () 1 s0 ∧
    s0.stk 0 = .client (.app (.wIn false true [(some 0, false), (some 1, true)])) :: [.client (.app (.usr 5))] ∧
    Frag (client (whenApp (tableW demoAnyEnd))) 0 [.client (.app (.usr 5))] s0 n s ∧ step (client (whenApp (tableW demoAnyEnd))) s (.th 0 .go) = some s' ∧
    Later (client (whenApp (tableW demoAnyEnd))) s' s1 ∧
    (decide (s'.stk 0 = [.client (.app (.usr 5))]), (s'.thr 0).exc, (s'.thr 0).rv, decide (.attached 0 0 3 ∈ s'.data.sd.slog ∧ .attached 0 1 4 ∈ s'.data.sd.slog),
      decide (.bodyRet 0 4 .unit ∈ s1.data.sd.slog), (s1.data.ad.ctx 0).failed, (s1.data.sd.st 2).value) =
      (true, none, .nat 2, true, true, [], some (.anyRes (some 1) [1, 2])) :=
  wfragWit (l := demoAnyEnd) (ls1 := go 0 9) (ls2 := go 0 21) (ls3 := go 0 34)
    (obs := fun s' s1 => (decide (s'.stk 0 = [.client (.app (.usr 5))]), (s'.thr 0).exc, (s'.thr 0).rv,
      decide (.attached 0 0 3 ∈ s'.data.sd.slog ∧ .attached 0 1 4 ∈ s'.data.sd.slog),
      decide (.bodyRet 0 4 .unit ∈ s1.data.sd.slog), (s1.data.ad.ctx 0).failed, (s1.data.sd.st 2).value)) (by decide +kernel)

end Itc
