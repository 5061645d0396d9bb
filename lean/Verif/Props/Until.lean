import Verif.Abs.Demo
import Verif.Props.CvReturn

/-!
# Waiting until a time point: C69

The functions that take a time point read the clock once and pass on what is left of the time; they are right because the time that passes
between that reading and the readings of the function they call only makes them wait longer.  For every user code and every schedule.
-/
namespace Itc
open Core Sync Abs
section
variable {α φ δ χ : Type} {U : UApp α φ δ χ} {u : δ} {i0 : φ} {s s' s0 s1 : USt α φ δ}

/-! ## Specification vocabulary -/

/-- The clock of the call shows the time point. -/
def Reached (r : Req) (s : USt α φ δ) : Prop := r.at_ ≤ r.now s.clock

/-- The same but for less than 1 µs. -/
def Almost (r : Req) (s : USt α φ δ) : Prop := r.at_ ≤ r.now s.clock + 999

/-- Thread `t` has executed a task since `s0`. -/
def RanTask (s0 s : USt α φ δ) (t : Nat) : Prop := ∃ es c k, s.log = es ++ s0.log ∧ .started t c k ∈ es

/-! ## Proof -/

/-- The first program point of the call. -/
def ent (r : Req) (clock : Nat) : Fr α (UFrame φ) :=
  match r.f with
  | .wait => .core (.waitForIn (r.at_ - r.now clock))
  | .sleep => .core (.sleepIn (r.at_ - r.now clock))
  | .cv n m => .client (.cfIn n m (r.at_ - r.now clock))
  | .fut p => .client (.fvIn? p (r.at_ - r.now clock))

theorem own_in {t : Nat} {ch : Ch χ} {r : Req} {rest : List (Fr α (UFrame φ))} (hst : s.stk t = .client (.app (.uIn r)) :: rest)
    (hs : step (client (absApp U)) s (.th t ch) = some s') :
    s'.stk t = ent r s.clock :: .client (.app (.uRet r)) :: rest ∧ s'.clock = s.clock ∨
    s'.term = true ∧ s'.stk t = s.stk t ∨ s'.stk t = rest ∧ (s'.thr t).exc ≠ none := by
  rcases step_cl hs with ⟨f, rest', d', a, hexc, hold, hstep, hdata, hact, -, -, -, -, -, hck⟩ | ⟨f, rest', hexc, hold, hcs, hdata, -⟩ |
    ⟨e, hexc, hst', hterm, -, hdata, -⟩ |
    ⟨e, f, k, rest', hexc, hold, hf, hst', hexc', hdata, -⟩ | ⟨e, f, rest', hexc, hold, hf, hst', -, hdata, -⟩ |
    ⟨e, g', g'', rest', hexc, hold, hg, hst', hexc', hdata, -⟩ | ⟨e, g', rest', hexc, hold, hg, hst', hexc', hdata, -⟩ | ⟨hold, hst', hexc', hdata, -⟩
  · rw [hst] at hold; cases hold
    cases client_cs hstep with
    | app g' ad' sa hA =>
      cases ch <;> simp only [absApp] at hA <;> first | contradiction | skip
      simp only [Option.some.injEq, Prod.mk.injEq] at hA
      obtain ⟨-, rfl⟩ := hA
      refine .inl ⟨?_, hck⟩
      obtain ⟨f, off, x⟩ := r
      cases f <;> exact hact.1
    | sync f sd a hS => cases hS
  · rw [hst] at hold; cases hold
  · exact .inr (.inl ⟨hterm, hst'⟩)
  · rw [hst] at hold; cases hold
  · rw [hst] at hold; cases hold
  · rw [hst] at hold; cases hold; cases hg
  · rw [hst] at hold; cases hold; exact .inr (.inr ⟨hst', by simp [hexc']⟩)
  · rw [hst] at hold; cases hold

theorem own_ret {t : Nat} {ch : Ch χ} {r : Req} {rest : List (Fr α (UFrame φ))} (hst : s.stk t = .client (.app (.uRet r)) :: rest)
    (hs : step (client (absApp U)) s (.th t ch) = some s') :
    s'.term = true ∧ s'.stk t = s.stk t ∨ s'.stk t = rest ∧ ((s'.thr t).exc = none → (s.thr t).exc = none ∧ (s'.thr t).rv = (s.thr t).rv) := by
  rcases step_cl hs with ⟨f, rest', d', a, hexc, hold, hstep, hdata, hact, -, -, -, -, -, hck⟩ | ⟨f, rest', hexc, hold, hcs, hdata, -⟩ |
    ⟨e, hexc, hst', hterm, -, hdata, -⟩ |
    ⟨e, f, k, rest', hexc, hold, hf, hst', hexc', hdata, -⟩ | ⟨e, f, rest', hexc, hold, hf, hst', -, hdata, -⟩ |
    ⟨e, g', g'', rest', hexc, hold, hg, hst', hexc', hdata, -⟩ | ⟨e, g', rest', hexc, hold, hg, hst', hexc', hdata, -⟩ | ⟨hold, hst', hexc', hdata, -⟩
  · rw [hst] at hold; cases hold
    cases client_cs hstep with
    | app g' ad' sa hA =>
      cases ch <;> simp only [absApp] at hA <;> first | contradiction | skip
      simp only [Option.some.injEq, Prod.mk.injEq] at hA
      obtain ⟨-, rfl⟩ := hA
      exact .inr ⟨hact.1, fun _ => ⟨hexc, hact.2.2⟩⟩
    | sync f sd a hS => cases hS
  · rw [hst] at hold; cases hold
  · exact .inl ⟨hterm, hst'⟩
  · rw [hst] at hold; cases hold
  · rw [hst] at hold; cases hold
  · rw [hst] at hold; cases hold; cases hg
  · rw [hst] at hold; cases hold; exact .inr ⟨hst', fun h => by rw [hexc'] at h; cases h⟩
  · rw [hst] at hold; cases hold

/-- What may happen to a postcondition between the return of the called function and the return of the caller. -/
def Stable (U : UApp α φ δ χ) (t : Nat) (P : USt α φ δ → Prop) : Prop :=
  ∀ {sa sb : USt α φ δ} {l : Lbl χ}, step (client (absApp U)) sa l = some sb → sa.clock ≤ sb.clock → (sb.thr t).rv = (sa.thr t).rv →
    (sa.notified t = true → sb.notified t = true) → P sa → P sb

/-- A call of one of the functions has the postcondition of the call it makes. -/
theorem thru {t n : Nat} {r : Req} {rest : List (Fr α (UFrame φ))} {P : USt α φ δ → Prop} (hr : UR U u i0 s0)
    (hst : s0.stk t = .client (.app (.uIn r)) :: rest)
    (hin : ∀ {s1 sa sb m l}, UR U u i0 s1 → Later (client (absApp U)) s0 s1 → s0.clock ≤ s1.clock → s1.stk t = ent r s1.clock :: .client (.app (.uRet r)) :: rest →
      Frag (client (absApp U)) t (.client (.app (.uRet r)) :: rest) s1 m sa → step (client (absApp U)) sa l = some sb →
      sb.stk t = .client (.app (.uRet r)) :: rest → (sb.thr t).exc = none → P sb)
    (hP : Stable U t P) (hf : Frag (client (absApp U)) t rest s0 n s) {l : Lbl χ} (hs : step (client (absApp U)) s l = some s') (hend : s'.stk t = rest)
    (hexc : (s'.thr t).exc = none) : P s' := by
  have ph : s.term = true ∨ (Later (client (absApp U)) s0 s ∧ s0.clock ≤ s.clock) ∧ (s.stk t = .client (.app (.uIn r)) :: rest ∨
      (∃ s1 m, UR U u i0 s1 ∧ Later (client (absApp U)) s0 s1 ∧ s0.clock ≤ s1.clock ∧ s1.stk t = ent r s1.clock :: .client (.app (.uRet r)) :: rest ∧
        Frag (client (absApp U)) t (.client (.app (.uRet r)) :: rest) s1 m s) ∨
      (s.stk t = .client (.app (.uRet r)) :: rest ∧ ((s.thr t).exc = none → P s))) := by
    clear hs hend hexc
    have main : ∀ {n s s' l}, Frag (client (absApp U)) t rest s0 n s → step (client (absApp U)) s l = some s' → (∃ pre f, s'.stk t = pre ++ f :: rest) →
        (s.term = true ∨ (Later (client (absApp U)) s0 s ∧ s0.clock ≤ s.clock) ∧ (s.stk t = .client (.app (.uIn r)) :: rest ∨
      (∃ s1 m, UR U u i0 s1 ∧ Later (client (absApp U)) s0 s1 ∧ s0.clock ≤ s1.clock ∧ s1.stk t = ent r s1.clock :: .client (.app (.uRet r)) :: rest ∧
        Frag (client (absApp U)) t (.client (.app (.uRet r)) :: rest) s1 m s) ∨
      (s.stk t = .client (.app (.uRet r)) :: rest ∧ ((s.thr t).exc = none → P s)))) →
        (s'.term = true ∨ (Later (client (absApp U)) s0 s' ∧ s0.clock ≤ s'.clock) ∧ (s'.stk t = .client (.app (.uIn r)) :: rest ∨
      (∃ s1 m, UR U u i0 s1 ∧ Later (client (absApp U)) s0 s1 ∧ s0.clock ≤ s1.clock ∧ s1.stk t = ent r s1.clock :: .client (.app (.uRet r)) :: rest ∧
        Frag (client (absApp U)) t (.client (.app (.uRet r)) :: rest) s1 m s') ∨
      (s'.stk t = .client (.app (.uRet r)) :: rest ∧ ((s'.thr t).exc = none → P s')))) := by
      rintro n s s' l hf hs ⟨pre, f, hst'⟩ h
      obtain ⟨⟨hL, hle⟩, h⟩ := h.resolve_left (by rw [step_live hs]; simp)
      have hrs := hf.reach hr
      have hck := step_clock hs
      have nope : s'.stk t ≠ rest := fun h => top_ne (h.symm.trans hst')
      have other : ∀ (x : Fr α (UFrame φ)), s.stk t = x :: rest → (∃ ch, l = .th t ch) ∨ ∀ ch, l ≠ .th t ch := fun _ _ => by
        by_cases h : ∃ ch, l = .th t ch
        · exact .inl h
        · exact .inr fun ch hc => h ⟨ch, hc⟩
      rcases h with h | ⟨s1, m, hr1, hL1, hle1, hs1, hfr⟩ | ⟨h, hp⟩
      · rcases other _ h with ⟨ch, rfl⟩ | ho
        · rcases own_in h hs with ⟨h1, h2⟩ | h1 | h1
          · refine .inr ⟨⟨hL.snoc hs, by omega⟩, .inr (.inl ⟨s', 0, hrs.step hs, hL.snoc hs, by omega, ?_, ?_⟩)⟩
            · rw [h2]; exact h1
            · exact .here _ h1
          · exact .inl h1.1
          · exact (nope h1.1).elim
        · obtain ⟨e1, -⟩ := still hrs (by rw [h]; simp) hs ho
          exact .inr ⟨⟨hL.snoc hs, by omega⟩, .inl (e1.trans h)⟩
      · have hpre : ∃ p, s'.stk t = p ++ .client (.app (.uRet r)) :: rest := by
          obtain ⟨p, x, hp⟩ := hfr.active
          cases l with
          | tick k => rw [step_tick _ s s' k hs]; exact ⟨p ++ [x], by simp [St.stk] at hp ⊢; exact hp⟩
          | th v ch =>
            by_cases hv : t = v
            · subst hv
              cases p with
              | nil => exact step_stk_self hs hp
              | cons y p =>
                obtain ⟨q, hq⟩ := step_stk_self hs hp
                exact ⟨q ++ (p ++ [x]), by rw [hq]; simp⟩
            · have := step_stk_other (Ne.symm hv) (FreeOK.reach hrs) hs (by rw [hp]; simp)
              exact ⟨p ++ [x], by rw [this, hp]; simp⟩
        rcases Frag.inner hfr hs hpre with ⟨m', hfr'⟩ | he
        · exact .inr ⟨⟨hL.snoc hs, by omega⟩, .inr (.inl ⟨s1, m', hr1, hL1, hle1, hs1, hfr'⟩)⟩
        · exact .inr ⟨⟨hL.snoc hs, by omega⟩, .inr (.inr ⟨he, fun hx => hin hr1 hL1 hle1 hs1 hfr hs he hx⟩)⟩
      · rcases other _ h with ⟨ch, rfl⟩ | ho
        · rcases own_ret h hs with h1 | h1
          · exact .inl h1.1
          · exact (nope h1.1).elim
        · obtain ⟨e1, e2, e3, -, e5⟩ := still hrs (by rw [h]; simp) hs ho
          exact .inr ⟨⟨hL.snoc hs, by omega⟩, .inr (.inr ⟨e1.trans h, fun hx => hP hs (by omega) e2 e5 (hp (by rw [← e3]; exact hx))⟩)⟩
    induction hf with
    | here f h => exact .inr ⟨⟨.refl, Nat.le_refl _⟩, .inl hst⟩
    | next l pre f h hs hst hno ih => exact main h hs ⟨pre, f, hst⟩ ih
    | start l pre f h hs hst hlen c k hlog ih => exact main h hs ⟨pre, f, hst⟩ ih
  obtain ⟨⟨hL, hle⟩, h⟩ := ph.resolve_left (by rw [step_live hs]; simp)
  have hrs := hf.reach hr
  obtain ⟨p, x, hact⟩ := hf.active
  obtain ⟨rfl, ch, rfl⟩ := Frag.last (n := n) hrs hact hs hend
  have hck := step_clock hs
  simp only [List.nil_append] at hact
  rcases h with h | ⟨s1, m, hr1, hL1, hle1, hs1, hfr⟩ | ⟨h, hp⟩
  · exfalso
    rcases own_in h hs with ⟨h1, h2⟩ | h1 | h1
    · exact top_ne (a := [_]) (hend.symm.trans h1)
    · exact top_ne (a := []) (hend.symm.trans (h1.2.trans h))
    · exact h1.2 hexc
  · obtain ⟨q, y, hq⟩ := hfr.active
    exfalso
    rw [hact] at hq
    have := congrArg List.length hq
    simp only [List.length_cons, List.length_append] at this
    omega
  · rcases own_ret h hs with h1 | ⟨h1, h2⟩
    · exact (top_ne (a := []) (hend.symm.trans (h1.2.trans h))).elim
    · obtain ⟨h3, h4⟩ := h2 hexc
      obtain ⟨e1, -, -, e4⟩ := own_notified h hs h3
      exact hP hs (by omega) h4 (fun hx => e1.trans hx) (hp h3)

theorem frag_later {t n : Nat} {rest : List (Fr α (UFrame φ))} (hf : Frag (client (absApp U)) t rest s0 n s) : Later (client (absApp U)) s0 s := by
  induction hf with
  | here => exact .refl
  | next l pre f h hs hst hno ih => exact ih.snoc hs
  | start l pre f h hs hst hlen c k hlog ih => exact ih.snoc hs

theorem frag_ran {t n : Nat} {rest : List (Fr α (UFrame φ))} (hf : Frag (client (absApp U)) t rest s0 n s) (hn : 0 < n) : RanTask s0 s t := by
  induction hf with
  | here => omega
  | next l pre f h hs hst hno ih =>
    obtain ⟨es, c, k, h1, h2⟩ := ih hn
    obtain ⟨es', h3⟩ := (Later.refl.snoc hs).log
    exact ⟨es' ++ es, c, k, by rw [h3, h1, List.append_assoc], List.mem_append_right _ h2⟩
  | start l pre f h hs hst hlen c k hlog ih =>
    obtain ⟨es, h3⟩ := (frag_later h).log
    exact ⟨.started t c k :: es, c, k, by rw [hlog, h3]; rfl, List.mem_cons_self⟩

theorem RanTask.later {t : Nat} (h0 : Later (client (absApp U)) s0 s1) (h : RanTask s1 s t) : RanTask s0 s t := by
  obtain ⟨es, c, k, h1, h2⟩ := h
  obtain ⟨es', h3⟩ := h0.log
  exact ⟨es ++ es', c, k, by rw [h1, h3, List.append_assoc], List.mem_append_left _ h2⟩

theorem RanTask.snoc {t : Nat} {l : Lbl χ} (h : RanTask s0 s t) (hs : step (client (absApp U)) s l = some s') : RanTask s0 s' t := by
  obtain ⟨es, c, k, h1, h2⟩ := h
  obtain ⟨es', h3⟩ := (Later.refl.snoc hs).log
  exact ⟨es' ++ es, c, k, by rw [h3, h1, List.append_assoc], List.mem_append_right _ h2⟩

theorem Reached.mono {r : Req} (h : Reached r s) (hle : s.clock ≤ s'.clock) : Reached r s' := by
  simp only [Reached, Req.now] at *; omega

theorem Almost.mono {r : Req} (h : Almost r s) (hle : s.clock ≤ s'.clock) : Almost r s' := by
  simp only [Almost, Req.now] at *; omega

theorem loc_or_none {t : Nat} {g : Fr α (UFrame φ)} {rest : List (Fr α (UFrame φ))} (he : Eff (client (absApp U)) s t s') (hst : s.stk t = g :: rest)
    (hend : s'.stk t = rest) : s'.loc t = s.loc t ∨ s'.loc t = none := by
  cases he
  case regDone c' self rest hreg hctx hold hloc hstk hlog =>
    rw [hst] at hold; cases hold
    exact (top_ne (a := []) (hend.symm.trans (by rw [hstk]; simp [upd]; rfl))).elim
  case fin hreg hctx hold hloc hstk hlog => rw [hst] at hold; cases hold
  case spawn m f v rest hreg hctx hold hfree hne hloc hstk hlog => exact .inl (by rw [hloc]; simp [upd, hne.symm])
  case unregClear rest hreg hctx hold hloc hstk hlog => exact .inr (by rw [hloc]; simp [upd])
  all_goals exact .inl (congrFun (by assumption) t)

theorem end_notified {t m : Nat} {rest : List (Fr α (UFrame φ))} (hr : UR U u i0 s1) (hf : Frag (client (absApp U)) t rest s1 m s) {l : Lbl χ}
    (hs : step (client (absApp U)) s l = some s') (hend : s'.stk t = rest)
    (h : s.loc t = none ∨ ∃ c, s.loc t = some c ∧ Ev.exitSet c ∈ s.log) : s'.notified t = true := by
  obtain ⟨p, g, hst⟩ := hf.active
  obtain ⟨rfl, ch, rfl⟩ := Frag.last (n := 0) (hf.reach hr) hst hs hend
  refine (notified_iff ((hf.reach hr).step hs) t).2 ?_
  rcases loc_or_none (step_eff _ _ _ _ _ hs) hst hend with h1 | h1
  · rw [h1]
    exact h.imp id fun ⟨c, h2, h3⟩ => ⟨c, h2, (Later.refl.snoc hs).mem h3⟩
  · exact .inl h1

/-- `this_thread::sleep_until` returns only if the time point has been reached, or the thread is notified for exit (or not registered). -/
theorem C69_sleep (hr : UR U u i0 s0) {t n : Nat} {r : Req} {rest : List (Fr α (UFrame φ))} (hfn : r.f = .sleep)
    (hst : s0.stk t = .client (.app (.uIn r)) :: rest) (hf : Frag (client (absApp U)) t rest s0 n s) {l : Lbl χ}
    (hs : step (client (absApp U)) s l = some s') (hend : s'.stk t = rest) (hexc : (s'.thr t).exc = none) :
    Reached r s' ∨ s'.notified t = true := by
  refine thru (P := fun x => Reached r x ∨ x.notified t = true) hr hst ?_ ?_ hf hs hend hexc
  · intro s1 sa sb m l hr1 hL hle hst1 hf1 hs1 hend1 hexc1
    simp only [ent, hfn] at hst1
    rcases C20_sleep hr1 hst1 hf1 hs1 hend1 hexc1 with h | h
    · have := step_clock hs1
      refine .inl ?_
      simp only [Reached, Req.now] at *
      omega
    · exact .inr (end_notified hr1 hf1 hs1 hend1 h)
  · intro sa sb l hs hck hrv hnt h
    exact h.imp (·.mono hck) hnt

/-- `this_thread::wait_until` returns `timeout` only if the time point has been reached (but for less than 1 µs); `no_timeout` only if so, or
    if it has executed a task, or if the thread is notified for exit (or not registered). -/
theorem C69_wait (hr : UR U u i0 s0) {t n : Nat} {r : Req} {rest : List (Fr α (UFrame φ))} (hfn : r.f = .wait)
    (hst : s0.stk t = .client (.app (.uIn r)) :: rest) (hf : Frag (client (absApp U)) t rest s0 n s) {l : Lbl χ}
    (hs : step (client (absApp U)) s l = some s') (hend : s'.stk t = rest) (hexc : (s'.thr t).exc = none) :
    ((s'.thr t).rv = .cv true ∧ Almost r s') ∨ ((s'.thr t).rv = .cv false ∧ (RanTask s0 s' t ∨ s'.notified t = true ∨ Almost r s')) := by
  refine thru (P := fun x => ((x.thr t).rv = .cv true ∧ Almost r x) ∨ ((x.thr t).rv = .cv false ∧ (RanTask s0 x t ∨ x.notified t = true ∨ Almost r x)))
    hr hst ?_ ?_ hf hs hend hexc
  · intro s1 sa sb m l hr1 hL hle hst1 hf1 hs1 hend1 hexc1
    simp only [ent, hfn] at hst1
    have hck := step_clock hs1
    rcases wait_return hr1 (WaitCall.waitFor _) hst1 hf1 hs1 hend1 hexc1 with ⟨rfl, h⟩ | ⟨h1, h⟩ | ⟨c, h1, h2, h⟩ | ⟨w, h1, h2, h⟩
    · exact .inr ⟨h, .inl (((frag_ran hf1 (by omega)).later hL).snoc hs1)⟩
    · exact .inr ⟨h, .inr (.inl (end_notified hr1 hf1 hs1 hend1 (.inl h1)))⟩
    · exact .inr ⟨h, .inr (.inl (end_notified hr1 hf1 hs1 hend1 (.inr ⟨c, h1, h2⟩)))⟩
    · obtain rfl := Option.some.inj h1
      have : Almost r sb := by
        simp only [Almost, Req.now] at *
        omega
      rcases h with h | ⟨h, -⟩
      · exact .inr ⟨h, .inr (.inr this)⟩
      · exact .inl ⟨h, this⟩
  · intro sa sb l hs hck hrv hnt h
    rw [hrv]
    exact h.imp (.imp id (·.mono hck)) (.imp id (.imp (·.snoc hs) (.imp hnt (·.mono hck))))

/-- A surprise: `this_thread::wait_until` with a time point that has been reached before the call returns `no_timeout`, not `timeout` as
    `std::condition_variable::wait_until` does (thread.h:338-341). -/
theorem C69_wait_past (hr : UR U u i0 s0) {t n : Nat} {r : Req} {rest : List (Fr α (UFrame φ))} (hfn : r.f = .wait)
    (hst : s0.stk t = .client (.app (.uIn r)) :: rest) (hp : Reached r s0) (hf : Frag (client (absApp U)) t rest s0 n s) {l : Lbl χ}
    (hs : step (client (absApp U)) s l = some s') (hend : s'.stk t = rest) (hexc : (s'.thr t).exc = none) : (s'.thr t).rv = .cv false := by
  refine thru (P := fun x => (x.thr t).rv = .cv false) hr hst ?_ (fun hs _ hrv _ h => hrv.trans h) hf hs hend hexc
  intro s1 sa sb m l hr1 hL hle hst1 hf1 hs1 hend1 hexc1
  simp only [ent, hfn] at hst1
  have hD : r.at_ - r.now s1.clock ≤ 0 := by simp only [Reached, Req.now] at *; omega
  generalize hx : r.at_ - r.now s1.clock = D at *
  obtain ⟨pre, g, hg, hph⟩ := Frag.ind' (fun _ g x => x.term = true ∨ g = .core (.waitForIn D)) hr1 (fun f h => .inr (by rw [hst1] at h; cases h; rfl))
    (by
      intro s1 n f1 ch s2 pre f2 hr1 h1 h2 h3 h4
      have : s2.term = true ∨ f2 = .core (.waitForIn D) := by
        obtain rfl := h2.resolve_left (by rw [step_live h3]; simp)
        rcases step_core h3 h1 with ⟨-, h⟩ | ⟨e, -, rfl⟩
        · simp only [stepCore, hD, if_true] at h
          obtain rfl := Option.some.inj h
          exact (top_ne (a := pre) (x := f2) (by rw [← h4]; simp [St.stk, St.ret, St.ev])).elim
        · exact .inl rfl
      exact ⟨fun _ => this, fun _ => this⟩)
    (by
      intro s1 n f1 l s2 hr1 h1 h2 h3 h4 h5
      exact .inr (h1.resolve_left (by rw [step_live h2]; simp))) hf1
  obtain rfl := hph.resolve_left (by rw [step_live hs1]; simp)
  obtain ⟨rfl, ch, rfl⟩ := Frag.last (n := 0) (hf1.reach hr1) hg hs1 hend1
  rcases step_core hs1 hg with ⟨-, h⟩ | ⟨e, -, rfl⟩
  · simp only [stepCore, hD, if_true] at h
    obtain rfl := Option.some.inj h
    simp [St.ret, St.ev]
  · exact (top_ne (a := []) (hend1.symm.trans hg)).elim

/-- `condition_variable::wait_until` returns `timeout` only if the time point has been reached (but for less than 1 µs), and `no_timeout` only if
    a `notify_one` or `notify_all` on that condition variable picked the entry of this thread and interrupted it, or the thread is notified for
    exit (or not registered). -/
theorem C69_cv (hr : UR U u i0 s0) {t n : Nat} {r : Req} {rest : List (Fr α (UFrame φ))} {c m : Nat} (hfn : r.f = .cv c m)
    (hst : s0.stk t = .client (.app (.uIn r)) :: rest) (hf : Frag (client (absApp U)) t rest s0 n s) {l : Lbl χ}
    (hs : step (client (absApp U)) s l = some s') (hend : s'.stk t = rest) (hexc : (s'.thr t).exc = none) :
    ((s'.thr t).rv = .cv true ∧ Almost r s') ∨
    ((s'.thr t).rv = .cv false ∧ (NotifiedSince (absApp U) s0 s' c t ∨ s'.notified t = true)) := by
  refine thru (P := fun x => ((x.thr t).rv = .cv true ∧ Almost r x) ∨
    ((x.thr t).rv = .cv false ∧ (NotifiedSince (absApp U) s0 x c t ∨ x.notified t = true))) hr hst ?_ ?_ hf hs hend hexc
  · intro s1 sa sb m l hr1 hL hle hst1 hf1 hs1 hend1 hexc1
    simp only [ent, hfn] at hst1
    rcases C68_wait_for hr1 hst1 hf1 hs1 hend1 hexc1 with ⟨h1, h2⟩ | ⟨h1, h2⟩
    · refine .inl ⟨h1, ?_⟩
      simp only [Almost, Req.now] at *
      omega
    · refine .inr ⟨h1, h2.imp ?_ id⟩
      rintro ⟨es, v, w, i, k, sm, h1, h2, h3, h4, h5, h6, h7⟩
      obtain ⟨es', he⟩ := later_slog hL
      exact ⟨es ++ es', v, w, i, k, sm, by rw [h1, he, List.append_assoc], List.mem_append_left _ h2, h3, List.mem_append_left _ h4, hL.trans h5, h6, h7⟩
  · intro sa sb l hs hck hrv hnt h
    rw [hrv]
    refine h.imp (.imp id (·.mono hck)) (.imp id (.imp ?_ hnt))
    rintro ⟨es, v, w, i, k, sm, h1, h2, h3, h4, h5, h6, h7⟩
    obtain ⟨es', he⟩ := later_slog (Later.refl.snoc hs)
    exact ⟨es' ++ es, v, w, i, k, sm, by rw [he, h1, List.append_assoc], List.mem_append_right _ h2, h3, List.mem_append_right _ h4, h5, h6.snoc hs, h7⟩

/-- `future::wait_until` returns `ready` only if the shared state is ready, `timeout` only if the time point has been reached (but for less than
    1 µs), `deferred` only if the thread is notified for exit (or not registered), and nothing else. -/
theorem C69_future (hr : UR U u i0 s0) {t n : Nat} {r : Req} {rest : List (Fr α (UFrame φ))} {p : Nat} (hfn : r.f = .fut (some p))
    (hst : s0.stk t = .client (.app (.uIn r)) :: rest) (hf : Frag (client (absApp U)) t rest s0 n s) {l : Lbl χ}
    (hs : step (client (absApp U)) s l = some s') (hend : s'.stk t = rest) (hexc : (s'.thr t).exc = none) :
    ((s'.thr t).rv = .fs .ready ∧ (s'.data.sd.st p).status ≠ .notSet) ∨ ((s'.thr t).rv = .fs .deferred ∧ s'.notified t = true) ∨
    ((s'.thr t).rv = .fs .timeout ∧ Almost r s') := by
  refine thru (P := fun x => ((x.thr t).rv = .fs .ready ∧ p < x.data.sd.nst ∧ (x.data.sd.st p).status ≠ .notSet) ∨ ((x.thr t).rv = .fs .deferred ∧ x.notified t = true) ∨
    ((x.thr t).rv = .fs .timeout ∧ Almost r x)) hr hst ?_ ?_ hf hs hend hexc |>.imp (fun h => ⟨h.1, h.2.2⟩) id
  · intro s1 sa sb m l hr1 hL hle hst1 hf1 hs1 hend1 hexc1
    simp only [ent, hfn] at hst1
    rcases C31_wait_for_partial hr1 hst1 hf1 hs1 hend1 hexc1 with ⟨h1, h2⟩ | h | ⟨h1, h2⟩
    · refine .inl ⟨h1, ?_, h2⟩
      by_contra hn
      exact h2 (by rw [(ty1_I ((hf1.reach hr1).step hs1)).fresh p (by omega)])
    · exact .inr (.inl h)
    · refine .inr (.inr ⟨h1, ?_⟩)
      simp only [Almost, Req.now] at *
      omega
  · intro sa sb l hs hck hrv hnt h
    rw [hrv]
    refine h.imp (.imp id fun h => ⟨Nat.lt_of_lt_of_le h.1 (step_ext hs).nst, ?_⟩) (.imp (.imp id hnt) (.imp id (·.mono hck)))
    have := (step_ext hs).ready h.1 (by simpa [SData.ready] using h.2)
    simpa [SData.ready] using this

end

/-! ## Examples -/

/-- Main sleeps; thread 5 sends main a task. -/
def demoSleepU : List (UAct Nat Nat) :=
  [.act (.core .registerThis 2), .act (.core (.spawn 5 10) 3), .till { f := .sleep, off := 100, at_ := 5100 } 4, .act (.ret .unit), .act (.ret .unit),
   .act (.ret .unit), .act (.ret .unit), .act (.ret .unit), .act (.ret .unit), .act (.core (.invoke 1 20) 11)]

/-- Hypotheses of `C69_sleep`: the thread executes a task, goes on sleeping, and returns when the clock of the call shows the time point. -/
example : ∃ s0 n s s', UR (utable demoSleepU) () 1 s0 ∧
    s0.stk 0 = .client (.app (.uIn { f := .sleep, off := 100, at_ := 5100 })) :: [.client (.app (.usr 4))] ∧
    Frag (client (absApp (utable demoSleepU))) 0 [.client (.app (.usr 4))] s0 n s ∧ step (client (absApp (utable demoSleepU))) s (.th 0 .go) = some s' ∧
    (s'.stk 0, (s'.thr 0).exc, s'.clock, s'.notified 0) = ([.client (.app (.usr 4))], none, 5000, false) :=
  ufragWit (ls1 := go 0 7) (ls2 := go 0 5 ++ go 5 4 ++ go 0 9 ++ [.tick 5000, .th 0 .timeout] ++ go 0 2)
    (obs := fun _ _ _ s' => (s'.stk 0, (s'.thr 0).exc, s'.clock, s'.notified 0)) (by decide +kernel)

/-- Main waits until 3000, then until 2000. -/
def demoWaitU : List (UAct Nat Nat) :=
  [.act (.core .registerThis 2), .till { f := .wait, at_ := 3000 } 3, .till { f := .wait, at_ := 2000 } 4]

/-- Hypotheses of `C69_wait`. -/
example : ∃ s0 n s s', UR (utable demoWaitU) () 1 s0 ∧
    s0.stk 0 = .client (.app (.uIn { f := .wait, at_ := 3000 })) :: [.client (.app (.usr 3))] ∧
    Frag (client (absApp (utable demoWaitU))) 0 [.client (.app (.usr 3))] s0 n s ∧ step (client (absApp (utable demoWaitU))) s (.th 0 .go) = some s' ∧
    (s'.stk 0, (s'.thr 0).exc, s'.clock, (s'.thr 0).rv) = ([.client (.app (.usr 3))], none, 3000, .cv true) :=
  ufragWit (ls1 := go 0 5) (ls2 := go 0 3 ++ [.tick 3000, .th 0 .timeout])
    (obs := fun _ _ _ s' => (s'.stk 0, (s'.thr 0).exc, s'.clock, (s'.thr 0).rv)) (by decide +kernel)

/-- Hypotheses of `C69_wait_past`. -/
example : ∃ s0 n s s', UR (utable demoWaitU) () 1 s0 ∧
    s0.stk 0 = .client (.app (.uIn { f := .wait, at_ := 2000 })) :: [.client (.app (.usr 4))] ∧
    Frag (client (absApp (utable demoWaitU))) 0 [.client (.app (.usr 4))] s0 n s ∧ step (client (absApp (utable demoWaitU))) s (.th 0 .go) = some s' ∧
    (s'.stk 0, (s'.thr 0).exc, s0.clock) = ([.client (.app (.usr 4))], none, 3000) :=
  ufragWit (ls1 := go 0 8 ++ [.tick 3000, .th 0 .timeout] ++ go 0 2) (ls2 := go 0 2)
    (obs := fun s0 _ _ s' => (s'.stk 0, (s'.thr 0).exc, s0.clock)) (by decide +kernel)

/-- Main waits on a condition variable, by a clock that is 200 ns behind. -/
def demoCvU : List (UAct Nat Nat) :=
  [.act (.core .registerThis 2), .act (.sync (.lock 0) 3), .till { f := .cv 0 0, off := -200, at_ := 800 } 4]

/-- Hypotheses of `C69_cv`. -/
example : ∃ s0 n s s', UR (utable demoCvU) () 1 s0 ∧
    s0.stk 0 = .client (.app (.uIn { f := .cv 0 0, off := -200, at_ := 800 })) :: [.client (.app (.usr 4))] ∧
    Frag (client (absApp (utable demoCvU))) 0 [.client (.app (.usr 4))] s0 n s ∧ step (client (absApp (utable demoCvU))) s (.th 0 .go) = some s' ∧
    (s'.stk 0, (s'.thr 0).exc, s'.clock, (s'.thr 0).rv) = ([.client (.app (.usr 4))], none, 1000, .cv true) :=
  ufragWit (ls1 := go 0 7) (ls2 := go 0 9 ++ [.tick 1000, .th 0 .timeout] ++ go 0 4)
    (obs := fun _ _ _ s' => (s'.stk 0, (s'.thr 0).exc, s'.clock, (s'.thr 0).rv)) (by decide +kernel)

/-- Main waits for a promise that nobody sets. -/
def demoFutU : List (UAct Nat Nat) :=
  [.act (.core .registerThis 2), .act (.sync (.promNew 0 false) 3), .till { f := .fut (some 0), off := 7, at_ := 4007 } 4]

/-- Hypotheses of `C69_future`. -/
example : ∃ s0 n s s', UR (utable demoFutU) () 1 s0 ∧
    s0.stk 0 = .client (.app (.uIn { f := .fut (some 0), off := 7, at_ := 4007 })) :: [.client (.app (.usr 4))] ∧
    Frag (client (absApp (utable demoFutU))) 0 [.client (.app (.usr 4))] s0 n s ∧ step (client (absApp (utable demoFutU))) s (.th 0 .go) = some s' ∧
    (s'.stk 0, (s'.thr 0).exc, s'.clock, (s'.thr 0).rv) = ([.client (.app (.usr 4))], none, 4000, .fs .timeout) :=
  ufragWit (ls1 := go 0 7) (ls2 := go 0 12 ++ [.tick 4000, .th 0 .timeout] ++ go 0 5)
    (obs := fun _ _ _ s' => (s'.stk 0, (s'.thr 0).exc, s'.clock, (s'.thr 0).rv)) (by decide +kernel)

end Itc
