import Verif.Sync.Act
import Verif.Core.Called

/-!
# What async and then return (proof infrastructure, no claims)
-/
namespace Itc
namespace Sync
open Core
section
variable {α φ δ χ : Type} {A : App α φ δ χ} {ad0 : δ} {f0 : φ}

/-- State `p` was made for this call of async / then, no earlier than when there were `n0` states. -/
def MadeFor (n0 id : Nat) (as : Bool) (a : α) (d : SData α) (p : Nat) : Prop :=
  n0 ≤ p ∧ p < d.nst ∧ (d.st p).owner = .pkg ∧ (d.st p).req = some ⟨id, as, p, a⟩

theorem MadeFor.mono {n0 id : Nat} {as : Bool} {a : α} {d d' : SData α} {p : Nat} (h : MadeFor n0 id as a d p) (he : Ext d d') : MadeFor n0 id as a d' p :=
  ⟨h.1, Nat.lt_of_lt_of_le h.2.1 he.nst, by rw [he.owner h.2.1]; exact h.2.2.1, by rw [he.req h.2.1]; exact h.2.2.2⟩

def AsyPh (n0 id : Nat) (as : Bool) (a : α) : SFrame α φ → SSt α φ δ → Prop
  | .asIn i b _ a', s => i = id ∧ b = as ∧ a' = a ∧ n0 ≤ s.data.sd.nst
  | .thIn _ i b _ a', s => i = id ∧ b = as ∧ a' = a ∧ n0 ≤ s.data.sd.nst
  | .laIn K c, s => (K matches .as) ∧ MadeFor n0 id as a s.data.sd c.p
  | .laRet K c, s => (K matches .as) ∧ MadeFor n0 id as a s.data.sd c.p
  | .laInl K c, s => (K matches .as) ∧ MadeFor n0 id as a s.data.sd c.p
  | .done v, s => ∃ p, v = .nat p ∧ MadeFor n0 id as a s.data.sd p
  | _, _ => False

theorem asyPh (t n0 id : Nat) (as : Bool) (a : α) (rest : List (Fr α φ)) :
    LPh (client A) { ad := ad0 } (.app f0) t rest (AsyPh n0 id as a) (fun v s => ∃ p, v = .nat p ∧ MadeFor n0 id as a s.data.sd p) where
  mono {s s' f l} hr hs h _ _ _ := by
    have he := step_ext hs
    cases f <;> simp only [AsyPh] at h ⊢ <;> first | exact h.elim | skip
    case asIn => exact ⟨h.1, h.2.1, h.2.2.1, Nat.le_trans h.2.2.2 he.nst⟩
    case thIn => exact ⟨h.1, h.2.1, h.2.2.1, Nat.le_trans h.2.2.2 he.nst⟩
    case done => obtain ⟨p, h1, h2⟩ := h; exact ⟨p, h1, h2.mono he⟩
    all_goals exact ⟨h.1, h.2.mono he⟩
  thr {s s' f e g ch} hr h hg _ _ := by
    cases f <;> simp only [AsyPh] at h <;> first | exact h.elim | (cases hg; done)
  cl {s s' f ch d' x} hr hst hexc h hs hstep hdata := by
    have mk : ∀ {x : FSt α}, n0 ≤ s.data.sd.nst → x.owner = .pkg → x.req = some ⟨id, as, s.data.sd.nst, a⟩ →
        MadeFor n0 id as a (s.data.sd.mkState t x) s.data.sd.nst := by
      intro x h1 h2 h3
      exact ⟨h1, by simp [SData.mkState], by simp [SData.mkState, set, h2], by simp [SData.mkState, set, h3]⟩
    have ex := step_ext hs
    cases client_cs hstep with
    | app g ad sa hA => exact h.elim
    | sync f sd x hS =>
      rw [hdata] at ex
      cases hS <;> simp only [AsyPh] at h <;> first | exact h.elim | trivial | exact h | exact fun _ => h | skip
      case thS =>
        obtain ⟨rfl, rfl, rfl, h⟩ := h
        exact fun _ => ⟨_, rfl, by rw [hdata]; exact mk h rfl rfl⟩
      case asIn =>
        obtain ⟨rfl, rfl, rfl, h⟩ := h
        exact fun _ => ⟨rfl, by rw [hdata]; exact mk h rfl rfl⟩
      case laRet K c =>
        obtain ⟨h1, h2⟩ := h
        cases K <;> simp at h1
        clear hstep
        generalize decide ((s.thr t).rv ≠ .bool true) = kept
        cases kept
        · exact ⟨_, rfl, by rw [hdata]; exact h2.mono ex⟩
        · exact fun _ => ⟨_, rfl, by rw [hdata]; exact h2.mono ex⟩
      case laEnd K c =>
        obtain ⟨h1, h2⟩ := h
        cases K <;> simp at h1
        exact fun _ => ⟨_, rfl, by rw [hdata]; exact h2.mono ex⟩
      case done =>
        obtain ⟨p, h1, h2⟩ := h
        exact ⟨p, h1, by rw [hdata]; exact h2.mono ex⟩
      all_goals exact fun _ => ⟨h.1, by rw [hdata]; exact h.2.mono ex⟩

/-- What async returns: the future of the state that it has made. -/
theorem async_ret {s0 s s' : SSt α φ δ} (hr : SR A ad0 f0 s0) {t n id : Nat} {as b : Bool} {a : α} {rest : List (Fr α φ)}
    (hst : s0.stk t = .client (SApi.async id as b a).entry :: rest) (hf : Frag (client A) t rest s0 n s) {l : Lbl χ}
    (hs : step (client A) s l = some s') (hend : s'.stk t = rest) (hexc : (s'.thr t).exc = none) :
    ∃ p, (s'.thr t).rv = .nat p ∧ MadeFor s0.data.sd.nst id as a s'.data.sd p :=
  (asyPh t s0.data.sd.nst id as a rest).fin hr hst ⟨rfl, rfl, rfl, Nat.le_refl _⟩ hf hs hend hexc

/-- A set_continuation that returns normally has attached the continuation. -/
theorem scPh (t q : Nat) (c : Kont α) (rest : List (Fr α φ)) :
    LPh (client A) { ad := ad0 } (.app f0) t rest (fun f s => .attached t q c.p ∈ s.data.sd.slog ∨ f = .scIn q c)
      (fun _ s => .attached t q c.p ∈ s.data.sd.slog) where
  mono {s s' f l} hr hs h _ _ _ := h.imp (step_ext hs).mem id
  thr {s s' f e g ch} hr h hg hs hd := by
    rcases h with h | rfl
    · exact .inl (by rw [hd]; exact h)
    · cases hg
  cl {s s' f ch d' x} hr hst hexc h hs hstep hdata := by
    have key : .attached t q c.p ∈ s'.data.sd.slog ∨ x = .terminate := by
      rcases h with h | rfl
      · exact .inl ((step_ext hs).mem h)
      · cases client_cs hstep with
        | sync f sd x hS =>
          rw [hdata]
          cases hS
          all_goals first | exact .inl (by simp [SData.ev, St.view]) | exact .inr rfl
    rcases key with h | rfl
    · cases x <;> first | trivial | exact h | exact fun _ => .inl h
    · trivial

def ThPh (A : App α φ δ χ) (ad0 : δ) (f0 : φ) (t : Nat) (rest : List (Fr α φ)) (n0 q id : Nat) (as : Bool) (a : α) : SFrame α φ → SSt α φ δ → Prop
  | .thIn q' i b _ a', s => q' = some q ∧ i = id ∧ b = as ∧ a' = a ∧ n0 ≤ s.data.sd.nst
  | .done v, s => ∃ p, v = .nat p ∧ MadeFor n0 id as a s.data.sd p ∧ 
      Nest (client A) { ad := ad0 } (.app f0) t (.client (.scIn q ⟨id, as, p, a⟩)) (.done (.nat p)) rest s
  | _, _ => False

theorem thPh (t n0 q id : Nat) (as : Bool) (a : α) (rest : List (Fr α φ)) :
    LPh (client A) { ad := ad0 } (.app f0) t rest (ThPh A ad0 f0 t rest n0 q id as a)
      (fun v s => ∃ p, v = .nat p ∧ MadeFor n0 id as a s.data.sd p ∧ .attached t q p ∈ s.data.sd.slog) where
  mono {s s' f l} hr hs h h1 h2 h3 := by
    have he := step_ext hs
    cases f <;> simp only [ThPh] at h ⊢ <;> first | exact h.elim | skip
    case thIn => exact ⟨h.1, h.2.1, h.2.2.1, h.2.2.2.1, Nat.le_trans h.2.2.2.2 he.nst⟩
    case done =>
      obtain ⟨p, rfl, h4, h5⟩ := h
      exact ⟨p, rfl, h4.mono he, h5.mono hr hs h2 h3⟩
  thr {s s' f e g ch} hr h hg hs hd := by
    cases f <;> simp only [ThPh] at h <;> first | exact h.elim | (cases hg; done)
  cl {s s' f ch d' x} hr hst hexc h hs hstep hdata := by
    have ex := step_ext hs
    cases client_cs hstep with
    | app g ad sa hA => exact h.elim
    | sync f sd x hS =>
      cases hS <;> simp only [ThPh] at h <;> first | exact h.elim | trivial | skip
      case thS =>
        obtain ⟨hq, rfl, rfl, rfl, h⟩ := h
        cases hq
        refine fun hst' => ⟨_, rfl, ?_, .start (hr.step hs) hst'⟩
        rw [hdata]
        exact ⟨h, by simp [SData.mkState], by simp [SData.mkState, set], by simp [SData.mkState, set]⟩
      case done =>
        obtain ⟨p, rfl, h1, h2⟩ := h
        refine ⟨p, rfl, h1.mono ex, ?_⟩
        obtain ⟨s0, n, s1, l, s2, h3, h4, h5, h6, h7, h8, h9, -⟩ := h2.ended hst
        have h10 := (scPh t q ⟨id, as, p, a⟩ _).fin h3 h4 (.inr rfl) h5 h6 h7 (h9 ▸ hexc)
        exact ex.mem (h8.ind (P := fun s => .attached t q p ∈ s.data.sd.slog) (fun hs h => (step_ext hs).mem h) h10)

/-- What then returns: the future of the state that it has made; its continuation is attached. -/
theorem then_att {s0 s s' : SSt α φ δ} (hr : SR A ad0 f0 s0) {t n id q : Nat} {as b : Bool} {a : α} {rest : List (Fr α φ)}
    (hst : s0.stk t = .client (SApi.futThen (some q) id as b a).entry :: rest) (hf : Frag (client A) t rest s0 n s) {l : Lbl χ}
    (hs : step (client A) s l = some s') (hend : s'.stk t = rest) (hexc : (s'.thr t).exc = none) :
    ∃ p, (s'.thr t).rv = .nat p ∧ MadeFor s0.data.sd.nst id as a s'.data.sd p ∧ .attached t q p ∈ s'.data.sd.slog :=
  (thPh t s0.data.sd.nst q id as a rest).fin hr hst ⟨rfl, rfl, rfl, rfl, Nat.le_refl _⟩ hf hs hend hexc

/-- What then returns: the future of the state that it has made. -/
theorem then_ret {s0 s s' : SSt α φ δ} (hr : SR A ad0 f0 s0) {t n id : Nat} {q : Option Nat} {as b : Bool} {a : α} {rest : List (Fr α φ)}
    (hst : s0.stk t = .client (SApi.futThen q id as b a).entry :: rest) (hf : Frag (client A) t rest s0 n s) {l : Lbl χ}
    (hs : step (client A) s l = some s') (hend : s'.stk t = rest) (hexc : (s'.thr t).exc = none) :
    ∃ p, (s'.thr t).rv = .nat p ∧ MadeFor s0.data.sd.nst id as a s'.data.sd p :=
  (asyPh t s0.data.sd.nst id as a rest).fin hr hst ⟨rfl, rfl, rfl, Nat.le_refl _⟩ hf hs hend hexc

end
end Sync
end Itc
