import Verif.Core.Queue

/-! # What the event log says (proof infrastructure) -/
namespace Itc
namespace Core
section
variable {τ φ δ χ : Type}

/-- What every event implies about the log before it. -/
def HP (e : Ev τ) (l : List (Ev τ)) : Prop :=
  match e with
  | .registered _ id n => id ≠ 0 ∧ id ∉ allRegs l ∧ regOf n l = none
  | .unregistered _ id n => id ∈ liveIds l ∧ regOf n l = some id
  | .regRes _ n id => regOf n l = some id
  | .accepted _ c id _ => ∃ n, Ev.registered c id n ∈ l
  | .refused _ id _ => id = 0 ∨ id ∉ liveIds l
  | .started t c _ => ∃ id, Ev.registered c id t ∈ l
  | .finished t c _ => ∃ id, Ev.registered c id t ∈ l
  | .threw t c => ∃ id, Ev.registered c id t ∈ l
  | .dropped _ c _ => ∃ id n, Ev.unregistered c id n ∈ l
  | .exitSet c => ∃ id n, Ev.registered c id n ∈ l
  | .pendRes _ c id n => (∃ m, Ev.registered c id m ∈ l) ∧ n + (fins c l).length = (accs c l).length
  | .inlined _ _ _ => True
  | .nestedUnreg _ _ => True
  | .inc _ => True
  | .dec _ => True
  | .ret t f v =>
    match f with
    | .allIds => v = .ids (liveIds l)
    | .register n => ∃ id, v = .nat id ∧ Ev.regRes t n id ∈ l
    | .invoke id => (v = .bool true ∧ ∃ c k, Ev.accepted t c id k ∈ l) ∨ (v = .bool false ∧ ∃ k, Ev.refused t id k ∈ l)
    | .dispatch => v = .bool true ∧ ∃ id k, Ev.inlined t id k ∈ l
    | .pending id => (∃ c n, v = .nat n ∧ Ev.pendRes t c id n ∈ l) ∨ (v = .nat 0 ∧ (id = 0 ∨ id ∉ liveIds l))
    | _ => True

structure LInv (s : St τ φ δ) : Prop where
  live : liveIds s.log = s.contexts.map (·.1)
  regOf : ∀ n, regOf n s.log = s.idMap n
  gen : ∀ i ∈ allRegs s.log, i ≤ s.gen
  regd : ∀ c id n, Ev.registered c id n ∈ s.log ↔ c < s.nctx ∧ (s.ctxs c).id = id ∧ (s.ctxs c).native = n
  unr : ∀ c id n, Ev.unregistered c id n ∈ s.log ↔
    c < s.nctx ∧ ¬ InReg s c ∧ (s.ctxs c).id = id ∧ (s.ctxs c).native = n
  fr : ∀ t f, f ∈ s.stk t → FrOK t s.log f
  hist : Hist HP s.log

theorem LInv.init (d : δ) (f : φ) : LInv (Core.init d f : St τ φ δ) where
  live := by simp [Core.init, liveIds]
  regOf := by simp [Core.init, Core.regOf]
  gen := by simp [Core.init, allRegs, extract]
  regd := by simp [Core.init]
  unr := by simp [Core.init]
  fr := by
    intro t g hg
    by_cases h : t = 0
    · subst h; simp [Core.init, St.stk] at hg; subst hg; trivial
    · simp [Core.init, St.stk, upd_ne _ _ h] at hg
  hist := trivial

theorem RetOK.mono {t : Nat} {l l' : List (Ev τ)} (hl : ∀ e ∈ l, e ∈ l') {f : Fn} {v : Val} (h : RetOK t l f v) :
    RetOK t l' f v := by
  unfold RetOK at *
  split at h
  · obtain ⟨id, h1, h2⟩ := h; exact ⟨id, h1, hl _ h2⟩
  · obtain ⟨h1, c, k, h2⟩ := h; exact ⟨h1, c, k, hl _ h2⟩
  · obtain ⟨c, n, h1, h2⟩ := h; exact ⟨c, n, h1, hl _ h2⟩
  · trivial
  · trivial
  · exact h

theorem FrOK.mono {t : Nat} {l l' : List (Ev τ)} (hl : ∀ e ∈ l, e ∈ l') {f : Frame τ φ} (h : FrOK t l f) :
    FrOK t l' f := by
  unfold FrOK at *
  split at h
  · obtain ⟨id, n, h1, h2⟩ := h; exact ⟨id, n, hl _ h1, hl _ h2⟩
  · obtain ⟨k, h⟩ := h; exact ⟨k, hl _ h⟩
  · obtain ⟨id, k, h⟩ := h; exact ⟨id, k, hl _ h⟩
  · obtain ⟨id, h⟩ := h; exact ⟨id, hl _ h⟩
  · exact hl _ h
  · exact RetOK.mono hl h
  · exact RetOK.mono hl h
  · trivial

theorem liveIds_neutral (es l : List (Ev τ)) (h : ∀ e ∈ es, e.neutral = true) : liveIds (es ++ l) = liveIds l := by
  induction es with
  | nil => rfl
  | cons e es ih =>
    have h1 := h e (by simp)
    have h2 := ih (fun e he => h e (by simp [he]))
    cases e <;> simp [Ev.neutral] at h1 <;> simpa [liveIds] using h2

theorem regOf_neutral (n : Nat) (es l : List (Ev τ)) (h : ∀ e ∈ es, e.neutral = true) :
    regOf n (es ++ l) = regOf n l := by
  induction es with
  | nil => rfl
  | cons e es ih =>
    have h1 := h e (by simp)
    have h2 := ih (fun e he => h e (by simp [he]))
    cases e <;> simp [Ev.neutral] at h1 <;> simpa [regOf] using h2

theorem allRegs_neutral (es l : List (Ev τ)) (h : ∀ e ∈ es, e.neutral = true) : allRegs (es ++ l) = allRegs l :=
  extract_neutral _ (fun e he => by cases e <;> simp [Ev.neutral] at he ⊢) es l h

theorem liveIds_drops {t : Nat} (d : Nat) (p : List τ) (l : List (Ev τ)) :
    liveIds ((p.map (Ev.dropped t d)).reverse ++ l) = liveIds l := by
  rw [← List.map_reverse]
  generalize p.reverse = q
  induction q with
  | nil => rfl
  | cons k q ih => simpa [liveIds] using ih

theorem regOf_drops {t : Nat} (n d : Nat) (p : List τ) (l : List (Ev τ)) :
    regOf n ((p.map (Ev.dropped t d)).reverse ++ l) = regOf n l := by
  rw [← List.map_reverse]
  generalize p.reverse = q
  induction q with
  | nil => rfl
  | cons k q ih => simpa [regOf] using ih

theorem allRegs_drops {t : Nat} (d : Nat) (p : List τ) (l : List (Ev τ)) :
    allRegs ((p.map (Ev.dropped t d)).reverse ++ l) = allRegs l := by
  show extract _ _ = extract _ _
  rw [extract_append, extract_drops _ _ (fun _ => rfl)]; simp

set_option tactic.hygienic false

theorem LInv.live' {C : Client τ φ δ χ} {s s' : St τ φ δ} (h : WF s) (q : LInv s) {t : Nat} (he : Eff C s t s') :
    liveIds s'.log = s'.contexts.map (·.1) := by
  have h0 := q.live
  cases he
  case ctl => rw [hlog, hreg.contexts, liveIds_neutral _ _ hes]; exact h0
  case freed => rw [hlog, hreg.contexts, liveIds_neutral _ _ hes]; simpa [liveIds] using h0
  case relLast => rw [hlog, hreg.contexts, liveIds_drops]; exact h0
  case regFound => rw [hlog, hcon]; simpa [liveIds] using h0
  case regNew => rw [hlog, hcon]; simp [liveIds, h0]
  case unreg =>
    rw [hlog, hcon]
    split <;> simp [liveIds, h0, List.filter_map, Function.comp_def]
  all_goals
    rw [hlog, hreg.contexts]
    simpa [liveIds] using h0

theorem LInv.regOf' {C : Client τ φ δ χ} {s s' : St τ φ δ} (h : WF s) (q : LInv s) {t : Nat} (he : Eff C s t s') :
    ∀ n, Core.regOf n s'.log = s'.idMap n := by
  intro m
  have h0 := q.regOf m
  cases he
  case ctl => rw [hlog, hreg.idMap, regOf_neutral _ _ _ hes]; exact h0
  case freed => rw [hlog, hreg.idMap, regOf_neutral _ _ _ hes]; simpa [Core.regOf] using h0
  case relLast => rw [hlog, hreg.idMap, regOf_drops]; exact h0
  case regFound => rw [hlog, hidm]; simpa [Core.regOf] using h0
  case regNew => rw [hlog, hidm]; simp only [Core.regOf, upd_app, h0]; grind
  case unreg =>
    rw [hlog, hidm]
    split <;> simp only [Core.regOf, upd_app, h0] <;> grind
  all_goals
    rw [hlog, hreg.idMap]
    simpa [Core.regOf] using h0

theorem LInv.gen' {C : Client τ φ δ χ} {s s' : St τ φ δ} (h : WF s) (q : LInv s) {t : Nat} (he : Eff C s t s') :
    ∀ i ∈ allRegs s'.log, i ≤ s'.gen := by
  intro i hi
  have h0 := q.gen i
  cases he
  case ctl => rw [hlog, allRegs_neutral _ _ hes] at hi; rw [hreg.gen]; exact h0 hi
  case freed => rw [hlog, allRegs_neutral _ _ hes] at hi; rw [hreg.gen]; simp [allRegs, extract] at hi h0; exact h0 hi
  case relLast => rw [hlog, allRegs_drops] at hi; rw [hreg.gen]; exact h0 hi
  case regFound =>
    have h1 := h.find_regId_some hfind
    rw [hlog] at hi; rw [hgen, h1.2.2]; simp [allRegs, extract] at hi h0; exact h0 hi
  case regNew =>
    have h1 := h.find_regId_none hfind
    rw [hlog] at hi; rw [hgen, h1.2.2]
    simp only [allRegs, extract, List.mem_append] at hi h0
    rcases hi with (hi | hi) | hi
    · have := h0 hi; omega
    · simp at hi; omega
    · simp at hi
  case unreg =>
    rw [hlog] at hi; rw [hgen]
    split at hi <;> (simp [allRegs, extract] at hi h0; exact h0 hi)
  all_goals
    rw [hlog] at hi
    rw [hreg.gen]
    simp [allRegs, extract] at hi h0
    exact h0 hi

/-- Ids and native threads of contexts never change; contexts are only added. -/
theorem ctx_stable {C : Client τ φ δ χ} {s s' : St τ φ δ} (h : WF s) {t : Nat} (he : Eff C s t s') {c : Nat}
    (hc : c < s.nctx) : (s'.ctxs c).id = (s.ctxs c).id ∧ (s'.ctxs c).native = (s.ctxs c).native := by
  cases he
  case start =>
    have h1 := pop_some hpop
    rw [hctx]; grind [upd_app]
  all_goals
    rw [hctx]
    grind [upd_app]

theorem LInv.regd' {C : Client τ φ δ χ} {s s' : St τ φ δ} (h : WF s) (q : LInv s) {t : Nat} (he : Eff C s t s') :
    ∀ c id n, Ev.registered c id n ∈ s'.log ↔ c < s'.nctx ∧ (s'.ctxs c).id = id ∧ (s'.ctxs c).native = n := by
  intro c id n
  have h0 := q.regd c id n
  have h1 := @ctx_stable _ _ _ _ C s s' h t he c
  have h2 : s'.nctx = s.nctx → (Ev.registered c id n ∈ s'.log ↔ Ev.registered c id n ∈ s.log) →
      (Ev.registered c id n ∈ s'.log ↔ c < s'.nctx ∧ (s'.ctxs c).id = id ∧ (s'.ctxs c).native = n) := by
    intro ha hb
    rw [ha, hb, h0]
    constructor
    · rintro ⟨x, y, z⟩; have := h1 x; exact ⟨x, by rw [this.1]; exact y, by rw [this.2]; exact z⟩
    · rintro ⟨x, y, z⟩; have := h1 x; exact ⟨x, by rw [← this.1]; exact y, by rw [← this.2]; exact z⟩
  cases he
  case ctl =>
    have : Ev.registered c id n ∉ es := fun hm => by have := hes _ hm; simp [Ev.neutral] at this
    exact h2 hreg.nctx (by rw [hlog]; simp [this])
  case freed =>
    have : Ev.registered c id n ∉ es := fun hm => by have := hes _ hm; simp [Ev.neutral] at this
    exact h2 hreg.nctx (by rw [hlog]; simp [this])
  case regFound => exact h2 hn (by rw [hlog]; simp)
  case regNew =>
    rw [hlog, hn, hctx]
    simp only [List.mem_cons, reduceCtorEq, false_or, h0]
    by_cases hc : c = s.nctx
    · subst hc; simp; grind
    · simp only [upd_ne _ _ hc]
      grind
  case unreg => exact h2 hn (by rw [hlog]; split <;> simp)
  case relLast => exact h2 hreg.nctx (by rw [hlog]; simp)
  all_goals exact h2 hreg.nctx (by rw [hlog]; try simp)

theorem LInv.unr' {C : Client τ φ δ χ} {s s' : St τ φ δ} (h : WF s) (q : LInv s) {t : Nat} (he : Eff C s t s') :
    ∀ c id n, Ev.unregistered c id n ∈ s'.log ↔
      c < s'.nctx ∧ ¬ InReg s' c ∧ (s'.ctxs c).id = id ∧ (s'.ctxs c).native = n := by
  intro c id n
  have h0 := q.unr c id n
  have h1 := @ctx_stable _ _ _ _ C s s' h t he c
  have h2 : s'.nctx = s.nctx → s'.contexts = s.contexts →
      (Ev.unregistered c id n ∈ s'.log ↔ Ev.unregistered c id n ∈ s.log) →
      (Ev.unregistered c id n ∈ s'.log ↔
        c < s'.nctx ∧ ¬ InReg s' c ∧ (s'.ctxs c).id = id ∧ (s'.ctxs c).native = n) := by
    intro ha hc hb
    rw [ha, hb, h0, inReg_same hc]
    constructor
    · rintro ⟨x, w, y, z⟩; have := h1 x; exact ⟨x, w, by rw [this.1]; exact y, by rw [this.2]; exact z⟩
    · rintro ⟨x, w, y, z⟩; have := h1 x; exact ⟨x, w, by rw [← this.1]; exact y, by rw [← this.2]; exact z⟩
  cases he
  case ctl =>
    have : Ev.unregistered c id n ∉ es := fun hm => by have := hes _ hm; simp [Ev.neutral] at this
    exact h2 hreg.nctx hreg.contexts (by rw [hlog]; simp [this])
  case freed =>
    have : Ev.unregistered c id n ∉ es := fun hm => by have := hes _ hm; simp [Ev.neutral] at this
    exact h2 hreg.nctx hreg.contexts (by rw [hlog]; simp [this])
  case regFound => exact h2 hn hcon (by rw [hlog]; simp)
  case regNew =>
    have hi : InReg s' c ↔ InReg s c ∨ c = s.nctx := by
      simp only [InReg, hcon, List.mem_append, List.mem_singleton, Prod.mk.injEq]
      constructor
      · rintro ⟨i, hi | hi⟩
        · exact .inl ⟨i, hi⟩
        · exact .inr hi.2
      · rintro (⟨i, hi⟩ | hi)
        · exact ⟨i, .inl hi⟩
        · exact ⟨_, .inr ⟨rfl, hi⟩⟩
    rw [hlog, hi, hn]
    simp only [List.mem_cons, reduceCtorEq, false_or, h0]
    constructor
    · rintro ⟨x, w, y, z⟩; have := h1 x
      exact ⟨by omega, by rintro (hh | hh); exact w hh; omega, by rw [this.1]; exact y, by rw [this.2]; exact z⟩
    · rintro ⟨x, w, y, z⟩
      have hne : c ≠ s.nctx := fun hh => w (.inr hh)
      have hx : c < s.nctx := by omega
      have := h1 hx
      exact ⟨hx, fun hh => w (.inl hh), by rw [← this.1]; exact y, by rw [← this.2]; exact z⟩
  case unreg =>
    have hm := mem_of_find h hfind
    have hi : InReg s' c ↔ InReg s c ∧ c ≠ c_1 := by
      simp only [InReg, hcon, List.mem_filter, Bool.not_eq_true', beq_eq_false_iff_ne]
      constructor
      · rintro ⟨i, hi, hne⟩
        refine ⟨⟨i, hi⟩, ?_⟩
        rintro rfl
        exact hne ((h.mem _ _ hi).2.1.symm.trans hm.2.1)
      · rintro ⟨⟨i, hi⟩, hne⟩
        refine ⟨i, hi, ?_⟩
        rintro rfl
        have := h.find_of_mem hi
        rw [hfind] at this
        exact hne (Option.some.inj this).symm
    have hl : Ev.unregistered c id n ∈ s'.log ↔
        (c = c_1 ∧ id = s.getId t ∧ n = (s.ctxs c_1).native) ∨ Ev.unregistered c id n ∈ s.log := by
      rw [hlog]; split <;> simp
    rw [hl, hi, hn, h0]
    constructor
    · rintro (⟨rfl, rfl, rfl⟩ | ⟨x, w, y, z⟩)
      · have := h1 hm.1
        exact ⟨hm.1, by simp, by rw [this.1, hm.2.1], this.2⟩
      · have := h1 x
        exact ⟨x, fun hh => w hh.1, by rw [this.1]; exact y, by rw [this.2]; exact z⟩
    · rintro ⟨x, w, y, z⟩
      have := h1 x
      by_cases hc : c = c_1
      · subst hc
        exact .inl ⟨rfl, by rw [← y, this.1, hm.2.1], by rw [← z, this.2]⟩
      · exact .inr ⟨x, fun hh => w ⟨hh, hc⟩, by rw [← this.1]; exact y, by rw [← this.2]; exact z⟩
  case relLast => exact h2 hreg.nctx hreg.contexts (by rw [hlog]; simp)
  all_goals exact h2 hreg.nctx hreg.contexts (by rw [hlog]; try simp)

theorem LInv.fr' {C : Client τ φ δ χ} {s s' : St τ φ δ} (h : WF s) (q : LInv s) {t : Nat} (he : Eff C s t s') :
    ∀ u f, f ∈ s'.stk u → FrOK u s'.log f := by
  intro u f hf
  have hm : ∀ e ∈ s.log, e ∈ s'.log := fun e h => log_mono he e h
  have h0 : f ∈ s.stk u → FrOK u s'.log f := fun hh => (q.fr u f hh).mono hm
  have key : ∀ new rest old, s.stk t = old :: rest → s'.stk = upd s.stk t (new ++ rest) →
      (∀ g ∈ new, FrOK t s'.log g) → FrOK u s'.log f := by
    intro new rest old h1 h2 h3
    rw [h2] at hf
    by_cases hu : u = t
    · subst hu
      simp only [upd_same, List.mem_append] at hf
      rcases hf with hf | hf
      · exact h3 f hf
      · exact h0 (by rw [h1]; exact List.mem_cons_of_mem _ hf)
    · rw [upd_ne _ _ hu] at hf; exact h0 hf
  cases he
  case ctl => exact key new rest old hold hstk (hfr (q.fr t old (by rw [hold]; simp)))
  case freed => exact key new rest _ hold hstk hfr
  case halt => rw [hstk] at hf; exact h0 hf
  case fin => rw [hstk] at hf; exact h0 hf
  case rewait => rw [hstk] at hf; exact h0 hf
  case spawn =>
    rw [hstk] at hf
    by_cases hu : u = t
    · subst hu; simp at hf; exact h0 (by rw [hold]; exact List.mem_cons_of_mem _ hf)
    · rw [upd_ne _ _ hu] at hf
      by_cases hun : u = n
      · subst hun; simp at hf; subst hf; trivial
      · rw [upd_ne _ _ hun] at hf; exact h0 hf
  case regFound =>
    have h1 := h.find_regId_some hfind
    have h2 := mem_of_find h hfind
    refine key [_] rest _ hold hstk ?_
    simp only [List.mem_singleton, forall_eq, FrOK]
    refine ⟨_, n, hm _ ((q.regd c _ n).2 ⟨h2.1, rfl, h1.2.1⟩), ?_⟩
    rw [hlog]; simp
  case regNew =>
    refine key [_] rest _ hold hstk ?_
    simp only [List.mem_singleton, forall_eq, FrOK]
    exact ⟨s.regId n, n, by rw [hlog]; simp, by rw [hlog]; simp⟩
  case regDone =>
    obtain ⟨id, n, h1, h2⟩ := q.fr t (.core (.regDone c self)) (by rw [hold]; simp)
    obtain ⟨-, rfl, rfl⟩ := (q.regd c id n).1 h1
    refine key [_] rest _ hold hstk ?_
    simp only [List.mem_singleton, forall_eq, FrOK, RetOK]
    exact ⟨_, rfl, hm _ h2⟩
  case unregNone => exact key [_] rest _ hold hstk (by simp [FrOK])
  case unreg => exact key [_, _] rest _ hold hstk (by simp [FrOK, RetOK])
  case unregClear => exact key [] rest _ hold hstk (by simp)
  case hold => exact key [_] rest _ ‹s.stk t = _ :: rest› hstk (by simpa using hgf _)
  case relLast =>
    have := q.fr t (.core (.release c f_1 v)) (by rw [hold]; simp)
    exact key [_] rest _ hold hstk (by simpa [FrOK] using this.mono hm)
  case relKeep => exact key [] rest _ hold hstk (by simp)
  case destroyed => exact key [] rest _ hold hstk (by simp)
  case exitSet => exact key [_] rest _ hold hstk (by simp [FrOK, RetOK])
  case invPush =>
    exact key [_] rest _ hold hstk (by simp only [List.mem_singleton, forall_eq, FrOK, RetOK]; simp only [true_and]; exact ⟨c, k, by rw [hlog]; simp⟩)
  case pendRead =>
    exact key [_] rest _ hold hstk (by simp only [List.mem_singleton, forall_eq, FrOK, RetOK]; exact ⟨c, n, rfl, by rw [hlog]; simp⟩)
  case start => exact key [_, _] rest _ hold hstk (by simp [FrOK, hlog])
  case park => exact key [_] rest _ hold hstk (by simp [FrOK])
  case parkRet => exact key [] rest _ hold hstk (by simp)
  case ran => exact key [_, _] rest _ hold hstk (by simp [FrOK])
  case threw => exact key [_, _] rest _ hold hstk (by simp [FrOK])

set_option tactic.hygienic true in
theorem Hist.ctl {s : St τ φ δ} (q : LInv s) {t : Nat} {old : Frame τ φ} {rest : List (Frame τ φ)} {es : List (Ev τ)}
    (hold : s.stk t = old :: rest) (hes : ∀ e ∈ es, e.neutral = true) (hok : EvsOK s t old es) :
    Hist HP (es ++ s.log) := by
  have hf := q.fr t old (by rw [hold]; simp)
  induction es with
  | nil => exact q.hist
  | cons e es ih =>
    have h1 := ih (fun e he => hes e (by simp [he])) hok.2
    refine ⟨?_, h1⟩
    have hn := hes e (by simp)
    have hl := liveIds_neutral es s.log (fun e he => hes e (by simp [he]))
    have hnl : ∀ id, s.find id = none → id ∉ liveIds (es ++ s.log) := by
      intro id hid
      rw [hl, q.live]
      intro hm
      obtain ⟨⟨i, c⟩, hc, hi⟩ := List.mem_map.1 hm
      simp only at hi
      subst hi
      exact find_none hid c hc
    have h2 := hok.1
    cases e <;> simp [Ev.neutral] at hn
    case refused u id k =>
      simp only [EvOK] at h2
      exact h2.2.imp (fun h => h) (hnl _)
    case inlined => trivial
    case inc => trivial
    case dec => trivial
    case ret u f v =>
      obtain ⟨rfl, h2⟩ := h2
      cases f <;> simp only [HP] at h2 ⊢
      case allIds => exact h2.trans (congrArg Val.ids (q.live.symm.trans hl.symm))
      case invoke id =>
        obtain ⟨rfl, h2⟩ := h2
        refine .inr ⟨rfl, ?_⟩
        rcases h2 with rfl | h2
        · obtain ⟨k, hk⟩ := hf
          exact ⟨k, List.mem_append_right _ hk⟩
        · exact h2
      case dispatch =>
        obtain ⟨rfl, rfl⟩ := h2
        refine ⟨rfl, ?_⟩
        obtain ⟨id, k, hk⟩ := hf
        exact ⟨id, k, List.mem_append_right _ hk⟩
      case pending id => exact .inr ⟨h2.2, h2.1.imp (fun h => h) (hnl _)⟩

theorem HP.ret {t : Nat} {l : List (Ev τ)} {f : Fn} {v : Val} (h : RetOK t l f v) : HP (.ret t f v) l := by
  unfold RetOK at h
  split at h
  · exact h
  · exact .inl h
  · exact .inl h
  · trivial
  · trivial
  · exact h.elim

theorem LInv.hist' {C : Client τ φ δ χ} {s s' : St τ φ δ} (h : WF s) (k : QInv s) (q : LInv s) {t : Nat}
    (he : Eff C s t s') : Hist HP s'.log := by
  have h0 := q.hist
  have hreg' : ∀ c, c < s.nctx → Ev.registered c (s.ctxs c).id (s.ctxs c).native ∈ s.log :=
    fun c hc => (q.regd c _ _).2 ⟨hc, rfl, rfl⟩
  cases he
  case ctl => rw [hlog]; exact Hist.ctl q hold hes hok
  case halt => rw [hlog]; exact h0
  case fin => rw [hlog]; exact h0
  case spawn => rw [hlog]; exact ⟨trivial, h0⟩
  case regFound =>
    have h1 := h.find_regId_some hfind
    have h2 := mem_of_find h hfind
    rw [hlog]
    refine ⟨?_, h0⟩
    simp only [HP, q.regOf, h.idm]
    exact ⟨c, by rw [h2.2.1]; exact h1.1, h1.2.1⟩
  case regNew =>
    have h1 := h.find_regId_none hfind
    rw [hlog]
    refine ⟨by simp [HP, Core.regOf], ⟨by omega, ?_, by rw [q.regOf]; exact h1.1⟩, h0⟩
    intro hm
    have := q.gen _ hm
    omega
  case regDone => rw [hlog]; exact h0
  case unregNone => rw [hlog]; exact h0
  case unreg =>
    have h2 := mem_of_find h hfind
    have h3 := find_some hfind
    have key : HP (.unregistered c (s.getId t) (s.ctxs c).native) s.log := by
      refine ⟨?_, ?_⟩
      · rw [q.live]; exact List.mem_map.2 ⟨_, h3, rfl⟩
      · rw [q.regOf, h.idm]; exact ⟨c, h3, rfl⟩
    rw [hlog]
    split
    · exact ⟨by simpa [HP, liveIds, Core.regOf] using key, trivial, h0⟩
    · exact ⟨key, h0⟩
  case unregClear => rw [hlog]; exact ⟨trivial, h0⟩
  case hold => rw [hlog]; exact h0
  case relLast =>
    have h1 := h.held (t := t) (c := c) (f := .core (.release c f v)) (by simp [hold]) (by simp [Frame.holds])
    have h2 : Ev.unregistered c (s.ctxs c).id (s.ctxs c).native ∈ s.log :=
      (q.unr c _ _).2 ⟨h1.1, fun ⟨i, hi⟩ => hnot i hi, rfl, rfl⟩
    rw [hlog, ← List.map_reverse]
    generalize (s.ctxs c).pend.reverse = p
    induction p with
    | nil => exact h0
    | cons a p ih => exact ⟨⟨_, _, List.mem_append_right _ h2⟩, ih⟩
  case relKeep =>
    have h1 := q.fr t _ (by rw [hold]; exact List.mem_cons_self)
    rw [hlog]; exact ⟨HP.ret h1, h0⟩
  case destroyed =>
    have h1 := q.fr t _ (by rw [hold]; exact List.mem_cons_self)
    rw [hlog]; exact ⟨HP.ret h1, h0⟩
  case exitSet =>
    have h1 := h.held (t := t) (c := c) (f := .core (.exitSet c)) (by simp [hold]) (by simp [Frame.holds])
    rw [hlog]; exact ⟨⟨_, _, hreg' c h1.1⟩, h0⟩
  case invPush =>
    have h1 := h.held (t := t) (c := c) (f := .core (.invPush c k_1)) (by simp [hold]) (by simp [Frame.holds])
    rw [hlog]; exact ⟨⟨_, hreg' c h1.1⟩, h0⟩
  case pendRead =>
    have h1 := h.held (t := t) (c := c) (f := .core (.pendRead c)) (by simp [hold]) (by simp [Frame.holds])
    rw [hlog]
    refine ⟨⟨⟨_, hreg' c h1.1⟩, ?_⟩, h0⟩
    have h2 := k.cons c
    have h3 := k.fin c
    have h4 := k.alive c h1.2
    rw [h4] at h2
    rw [h2, hval]
    simp [Ctx.pend]
    omega
  case start =>
    have hl : s.loc t = some c := by
      rcases hf with ⟨-, h3, -⟩ | ⟨dl, rfl, -⟩
      · exact h3
      · exact h.prk t _ dl rest hold
    have h1 := h.loc t c hl
    rw [hlog]
    have := hreg' c h1.1
    rw [h1.2.1] at this
    exact ⟨⟨_, this⟩, h0⟩
  case park => rw [hlog]; exact h0
  case rewait => rw [hlog]; exact h0
  case parkRet => rw [hlog]; exact ⟨trivial, h0⟩
  case ran => rw [hlog]; exact h0
  case freed =>
    have h1 := h.tsk t _ c (by rw [hold]; exact List.mem_cons_self) (by simp [Frame.task])
    have h2 : HP (.finished t c k_1) s.log := by
      have := hreg' c h1.1
      rw [h1.2.1] at this
      exact ⟨_, this⟩
    rw [hlog]
    rcases hes' with rfl | ⟨b, rfl⟩
    · exact ⟨h2, h0⟩
    · exact ⟨trivial, h2, h0⟩
  case threw =>
    have h1 := h.tsk t _ c (by rw [hold]; exact List.mem_cons_self) (by simp [Frame.task])
    rw [hlog]
    refine ⟨?_, h0⟩
    have := hreg' c h1.1
    rw [h1.2.1] at this
    exact ⟨_, this⟩

theorem LInv.step {C : Client τ φ δ χ} {s s' : St τ φ δ} (h : WF s) (k : QInv s) (q : LInv s) (l : Lbl χ)
    (hs : step C s l = some s') : LInv s' := by
  cases l with
  | tick n =>
    rw [step_tick C s s' n hs]
    exact { live := q.live, regOf := q.regOf, gen := q.gen, regd := q.regd, unr := q.unr, fr := q.fr, hist := q.hist }
  | th t ch =>
    have he := step_eff C s s' t ch hs
    exact { live := q.live' h he, regOf := q.regOf' h he, gen := q.gen' h he, regd := q.regd' h he,
            unr := q.unr' h he, fr := q.fr' h he, hist := q.hist' h k he }

theorem LInv.reach {C : Client τ φ δ χ} {d : δ} {f : φ} {s : St τ φ δ} (h : Reach C d f s) : LInv s :=
  Reach.induct LInv (.init d f) (fun _ l _ hr ho hs => LInv.step (WF.reach hr) (QInv.reach hr) ho l hs) h

end
end Core
end Itc
