import Verif.Core.WF
import Verif.Core.Spec

/-! # Queues, depth, wake-up: invariants (proof infrastructure) -/
namespace Itc
namespace Core
section
variable {τ φ δ χ : Type}

theorem extract_neutral {β : Type} (g : Ev τ → Option β) (hg : ∀ e, e.neutral = true → g e = none)
    (es l : List (Ev τ)) (h : ∀ e ∈ es, e.neutral = true) : extract g (es ++ l) = extract g l := by
  induction es with
  | nil => rfl
  | cons e es ih =>
    simp only [List.cons_append, extract]
    rw [ih (fun e he => h e (by simp [he])), hg e (h e (by simp))]
    simp

theorem extract_append {β : Type} (g : Ev τ → Option β) (es l : List (Ev τ)) :
    extract g (es ++ l) = extract g l ++ extract g es := by
  induction es with
  | nil => simp [extract]
  | cons e es ih => simp [extract, ih]

theorem accs_neutral (c : Nat) (es l : List (Ev τ)) (h : ∀ e ∈ es, e.neutral = true) : accs c (es ++ l) = accs c l :=
  extract_neutral _ (fun e he => by cases e <;> simp [Ev.neutral] at he ⊢) es l h
theorem stas_neutral (c : Nat) (es l : List (Ev τ)) (h : ∀ e ∈ es, e.neutral = true) : stas c (es ++ l) = stas c l :=
  extract_neutral _ (fun e he => by cases e <;> simp [Ev.neutral] at he ⊢) es l h
theorem fins_neutral (c : Nat) (es l : List (Ev τ)) (h : ∀ e ∈ es, e.neutral = true) : fins c (es ++ l) = fins c l :=
  extract_neutral _ (fun e he => by cases e <;> simp [Ev.neutral] at he ⊢) es l h
theorem dros_neutral (c : Nat) (es l : List (Ev τ)) (h : ∀ e ∈ es, e.neutral = true) : dros c (es ++ l) = dros c l :=
  extract_neutral _ (fun e he => by cases e <;> simp [Ev.neutral] at he ⊢) es l h
theorem thrs_neutral (c : Nat) (es l : List (Ev τ)) (h : ∀ e ∈ es, e.neutral = true) : thrs c (es ++ l) = thrs c l :=
  extract_neutral _ (fun e he => by cases e <;> simp [Ev.neutral] at he ⊢) es l h

theorem accs_append (c : Nat) (a b : List (Ev τ)) : accs c (a ++ b) = accs c b ++ accs c a := extract_append _ a b
theorem stas_append (c : Nat) (a b : List (Ev τ)) : stas c (a ++ b) = stas c b ++ stas c a := extract_append _ a b
theorem fins_append (c : Nat) (a b : List (Ev τ)) : fins c (a ++ b) = fins c b ++ fins c a := extract_append _ a b
theorem dros_append (c : Nat) (a b : List (Ev τ)) : dros c (a ++ b) = dros c b ++ dros c a := extract_append _ a b
theorem thrs_append (c : Nat) (a b : List (Ev τ)) : thrs c (a ++ b) = thrs c b ++ thrs c a := extract_append _ a b

/-- The drop events of a destroyed context. -/
theorem extract_drops {β : Type} {t : Nat} (g : Ev τ → Option β) (d : Nat) (hg : ∀ k, g (.dropped t d k) = none) (p : List τ) :
    extract g ((p.map (Ev.dropped t d)).reverse) = [] := by
  rw [← List.map_reverse]
  generalize p.reverse = q
  induction q with
  | nil => rfl
  | cons k q ih => simp [extract, ih, hg]

theorem dros_drops {t : Nat} (c d : Nat) (p : List τ) :
    dros c ((p.map (Ev.dropped t d)).reverse) = if d = c then p else [] := by
  rw [← List.map_reverse]
  generalize hq : p.reverse = q
  have hp : p = q.reverse := by rw [← hq]; simp
  rw [hp]
  clear hp hq p
  induction q with
  | nil => simp [dros, extract]
  | cons k q ih =>
    simp only [List.map_cons, dros, extract] at ih ⊢
    rw [ih]
    by_cases h : d = c <;> simp [h]

/-- Number of `process_one` activations of context `c` on a stack. -/
def tcount (c : Nat) (l : List (Frame τ φ)) : Nat := l.countP (Frame.task c)

theorem tcount_plain {l : List (Frame τ φ)} (h : ∀ f ∈ l, f.plain = true) (c : Nat) : tcount c l = 0 := by
  rw [tcount, List.countP_eq_zero]
  intro f hf; simp [plain_task (h f hf)]

structure QInv (s : St τ φ δ) : Prop where
  cons : ∀ c, accs c s.log = stas c s.log ++ dros c s.log ++ (s.ctxs c).pend
  alive : ∀ c, (s.ctxs c).life = .alive → dros c s.log = []
  depth : ∀ c, (s.ctxs c).depth = tcount c (s.stk (s.ctxs c).native) + (thrs c s.log).length
  fin : ∀ c, (stas c s.log).length = (fins c s.log).length + (s.ctxs c).depth
  wake : ∀ t c dl rest, s.stk t = .core (.parked c dl) :: rest →
    ((s.ctxs c).pend ≠ [] ∨ (s.ctxs c).exit = true → (s.ctxs c).wakeup = true) ∧
    ((s.ctxs c).wakeup = true → (s.ctxs c).cv = true)
  exit : ∀ c, (s.ctxs c).exit = true ↔ Ev.exitSet c ∈ s.log

theorem QInv.init (d : δ) (f : φ) : QInv (Core.init d f : St τ φ δ) where
  cons := by intro c; simp [Core.init, accs, stas, dros, extract, Ctx.pend]
  alive := by intro c; simp [Core.init, dros, extract]
  depth := by intro c; simp [Core.init, thrs, extract, tcount, St.stk, Frame.task]
  fin := by intro c; simp [Core.init, stas, fins, extract]
  wake := by
    intro t c dl rest hs
    by_cases h : t = 0
    · subst h; simp [Core.init, St.stk] at hs
    · simp [Core.init, St.stk, upd_ne _ _ h] at hs
  exit := by intro c; simp [Core.init]

set_option tactic.hygienic false

/-- The part of `QInv` about queue contents. -/
theorem QInv.cons' {C : Client τ φ δ χ} {s s' : St τ φ δ} (h : WF s) (q : QInv s) {t : Nat} (he : Eff C s t s') :
    ∀ c, accs c s'.log = stas c s'.log ++ dros c s'.log ++ (s'.ctxs c).pend := by
  intro c
  have h0 := q.cons c
  cases he
  case ctl =>
    rw [hlog, hctx, accs_neutral _ _ _ hes, stas_neutral _ _ _ hes, dros_neutral _ _ _ hes]; exact h0
  case freed =>
    rw [hlog, hctx, accs_neutral _ _ _ hes, stas_neutral _ _ _ hes, dros_neutral _ _ _ hes]
    simp only [accs, stas, dros, extract] at h0 ⊢
    grind [upd_app, Ctx.pend]
  case regNew =>
    have h1 := h.dfl s.nctx (Nat.le_refl _)
    rw [hlog, hctx]
    simp only [accs, stas, dros, extract] at h0 ⊢
    by_cases hc : c = s.nctx
    · subst hc; rw [h1] at h0; simpa [Ctx.pend] using h0
    · simpa [upd_ne _ _ hc] using h0
  case unreg =>
    rw [hlog, hctx]
    split
    all_goals
      simp only [accs, stas, dros, extract] at h0 ⊢
      by_cases hc : c = c_1
      · subst hc; simpa [Ctx.pend] using h0
      · simpa [upd_ne _ _ hc] using h0
  case relLast =>
    have h1 := h.held (t := t) (c := c_1) (f := .core (.release c_1 f v)) (by simp [hold]) (by simp [Frame.holds])
    have h2 := q.alive c_1 h1.2
    rw [hlog, hctx, accs_append, stas_append, dros_append, dros_drops]
    have e1 : accs c (((s.ctxs c_1).pend.map (Ev.dropped t c_1)).reverse) = [] := extract_drops _ _ (fun _ => rfl) _
    have e2 : stas c (((s.ctxs c_1).pend.map (Ev.dropped t c_1)).reverse) = [] := extract_drops _ _ (fun _ => rfl) _
    rw [e1, e2]
    by_cases hc : c = c_1
    · subst hc; rw [h0, h2]; simp [Ctx.pend]
    · have hc' : c_1 ≠ c := fun h => hc h.symm
      simp [upd_ne _ _ hc, hc', h0]
  case start =>
    have h1 := pop_some hpop
    have h2 : (s.ctxs c_1).pend = k :: x.pend := h1.1
    have hl : s.loc t = some c_1 := by
      rcases hf with ⟨-, h3, -⟩ | ⟨dl, rfl, -⟩
      · exact h3
      · exact h.prk t _ dl rest hold
    have h3 := q.alive c_1 halive
    rw [hlog, hctx]
    simp only [accs, stas, dros, extract] at h0 h3 ⊢
    by_cases hc : c = c_1
    · subst hc
      rw [h2, h3] at h0
      simp [h3, h0]
    · have hc' : c_1 ≠ c := fun h => hc h.symm
      simpa [upd_ne _ _ hc, hc'] using h0
  case invPush =>
    rw [hlog, hctx]
    have h3 := q.alive c_1 halive
    simp only [accs, stas, dros, extract] at h0 h3 ⊢
    by_cases hc : c = c_1
    · subst hc
      rw [h0, h3]
      simp [Ctx.pend]
    · have hc' : c_1 ≠ c := fun h => hc h.symm
      simpa [upd_ne _ _ hc, hc'] using h0
  all_goals
    rw [hlog, hctx]
    simp only [accs, stas, dros, extract] at h0 ⊢
    grind [upd_app, Ctx.pend]

theorem QInv.alive' {C : Client τ φ δ χ} {s s' : St τ φ δ} (h : WF s) (q : QInv s) {t : Nat} (he : Eff C s t s') :
    ∀ c, (s'.ctxs c).life = .alive → dros c s'.log = [] := by
  intro c hc
  have h0 := q.alive c
  cases he
  case ctl => rw [hlog, dros_neutral _ _ _ hes]; rw [hctx] at hc; exact h0 hc
  case freed =>
    rw [hlog, dros_neutral _ _ _ hes]
    rw [hctx] at hc
    simp only [dros, extract] at h0 ⊢
    grind [upd_app]
  case regNew =>
    have h1 := h.dfl s.nctx (Nat.le_refl _)
    rw [hlog]
    rw [hctx] at hc
    simp only [dros, extract] at h0 ⊢
    by_cases hcn : c = s.nctx
    · subst hcn; rw [h1] at h0; simpa using h0
    · rw [upd_ne _ _ hcn] at hc; simpa using h0 hc
  case unreg =>
    rw [hlog]
    rw [hctx] at hc
    split
    all_goals
      simp only [dros, extract] at h0 ⊢
      grind [upd_app]
  case relLast =>
    rw [hctx] at hc
    by_cases hcn : c = c_1
    · subst hcn; simp at hc
    · have hc' : c_1 ≠ c := fun h => hcn h.symm
      rw [upd_ne _ _ hcn] at hc
      rw [hlog, dros_append, dros_drops]
      simpa [hc'] using h0 hc
  case start =>
    have h1 := pop_some hpop
    rw [hlog]
    rw [hctx] at hc
    simp only [dros, extract] at h0 ⊢
    grind [upd_app]
  all_goals
    rw [hlog]
    rw [hctx] at hc
    simp only [dros, extract] at h0 ⊢
    grind [upd_app]

theorem QInv.fin' {C : Client τ φ δ χ} {s s' : St τ φ δ} (h : WF s) (q : QInv s) {t : Nat} (he : Eff C s t s') :
    ∀ c, (stas c s'.log).length = (fins c s'.log).length + (s'.ctxs c).depth := by
  intro c
  have h0 := q.fin c
  cases he
  case ctl => rw [hlog, hctx, stas_neutral _ _ _ hes, fins_neutral _ _ _ hes]; exact h0
  case freed =>
    have h1 := q.depth c_1
    have h2 := h.tsk t _ c_1 (by rw [hold]; exact List.mem_cons_self) (by simp [Frame.task])
    rw [h2.2.1, hold] at h1
    rw [hlog, hctx, stas_neutral _ _ _ hes, fins_neutral _ _ _ hes]
    simp only [stas, fins, extract, tcount, List.countP_cons] at h0 h1 ⊢
    by_cases hc : c = c_1
    · subst hc
      simp [Frame.task] at h0 h1 ⊢
      omega
    · have hc' : c_1 ≠ c := fun h => hc h.symm
      simpa [upd_ne _ _ hc, hc'] using h0
  case regNew =>
    have h1 := h.dfl s.nctx (Nat.le_refl _)
    rw [hlog, hctx]
    simp only [stas, fins, extract] at h0 ⊢
    by_cases hcn : c = s.nctx
    · subst hcn; rw [h1] at h0; simpa using h0
    · simpa [upd_ne _ _ hcn] using h0
  case unreg =>
    rw [hlog, hctx]
    split
    all_goals
      simp only [stas, fins, extract] at h0 ⊢
      by_cases hcn : c = c_1
      · subst hcn; simpa using h0
      · simpa [upd_ne _ _ hcn] using h0
  case relLast =>
    have e1 : fins c (((s.ctxs c_1).pend.map (Ev.dropped t c_1)).reverse) = [] := extract_drops _ _ (fun _ => rfl) _
    have e2 : stas c (((s.ctxs c_1).pend.map (Ev.dropped t c_1)).reverse) = [] := extract_drops _ _ (fun _ => rfl) _
    rw [hlog, hctx, stas_append, fins_append, e1, e2]
    by_cases hcn : c = c_1
    · subst hcn; simpa using h0
    · simpa [upd_ne _ _ hcn] using h0
  case start =>
    have h1 := pop_some hpop
    rw [hlog, hctx]
    simp only [stas, fins, extract] at h0 ⊢
    by_cases hcn : c = c_1
    · subst hcn; simp at h0 h1 ⊢; omega
    · have hc' : c_1 ≠ c := fun h => hcn h.symm
      simpa [upd_ne _ _ hcn, hc'] using h0
  all_goals
    rw [hlog, hctx]
    simp only [stas, fins, extract] at h0 ⊢
    grind [upd_app]

theorem QInv.depth' {C : Client τ φ δ χ} {s s' : St τ φ δ} (h : WF s) (q : QInv s) {t : Nat} (he : Eff C s t s') :
    ∀ c, (s'.ctxs c).depth = tcount c (s'.stk (s'.ctxs c).native) + (thrs c s'.log).length := by
  intro c
  have h0 := q.depth c
  -- frames of a context sit on the stack of its native thread only
  have ht : ∀ u, 0 < tcount c (s.stk u) → c < s.nctx ∧ (s.ctxs c).native = u := fun u hu => by
    obtain ⟨f, hf, hc⟩ := List.countP_pos_iff.1 hu
    exact ⟨(h.tsk u f c hf hc).1, (h.tsk u f c hf hc).2.1⟩
  have hp := @plain_task τ φ
  cases he
  case ctl =>
    have e := tcount_plain hnewp c
    rw [hlog, hctx, hstk, thrs_neutral _ _ _ hes, h0]
    by_cases hn : (s.ctxs c).native = t
    · rw [hn, upd_same, hold]
      simp only [tcount, List.countP_cons, List.countP_append] at e ⊢
      simp [hp holdp, e]
    · rw [upd_ne _ _ hn]
  case freed =>
    have e := tcount_plain hnewp c
    have h2 := h.tsk t _ c_1 (by rw [hold]; exact List.mem_cons_self) (by simp [Frame.task])
    rw [hlog, hctx, hstk, thrs_neutral _ _ _ hes]
    by_cases hc : c = c_1
    · subst hc
      rw [h2.2.1, hold] at h0
      simp only [upd_same, h2.2.1]
      simp only [tcount, List.countP_cons, List.countP_append, thrs, extract] at e h0 ⊢
      simp [Frame.task] at h0 ⊢
      rw [e]; omega
    · rw [upd_ne _ _ hc]
      have hc' : c_1 ≠ c := fun h => hc h.symm
      simp only [thrs, extract] at h0 ⊢
      rw [h0]
      by_cases hn : (s.ctxs c).native = t
      · rw [hn, upd_same, hold]
        simp only [tcount, List.countP_cons, List.countP_append] at e ⊢
        simp [Frame.task, hc', e]
      · simp [upd_ne _ _ hn]
  case regNew =>
    have h1 := h.dfl s.nctx (Nat.le_refl _)
    rw [hlog, hctx, hstk]
    by_cases hcn : c = s.nctx
    · subst hcn
      rw [h1] at h0
      simp only [upd_same, thrs, extract] at h0 ⊢
      have e : ∀ u, tcount s.nctx (s.stk u) = 0 := fun u => by
        by_contra hne
        have := (ht u (by omega)).1
        omega
      have e' : tcount s.nctx (.core (.regDone s.nctx self) :: rest) = 0 := by
        have := e t
        rw [hold] at this
        simpa [tcount, Frame.task] using this
      simp at h0 ⊢
      have h3 := e 0
      by_cases hn : n = t
      · subst hn; rw [upd_same, e']; simp; simpa [h3] using h0
      · rw [upd_ne _ _ hn, e]; simp; simpa [h3] using h0
    · rw [upd_ne _ _ hcn]
      simp only [thrs, extract] at h0 ⊢
      rw [h0]
      by_cases hn : (s.ctxs c).native = t
      · rw [hn, upd_same, hold]; simp [tcount, Frame.task]
      · simp [upd_ne _ _ hn]
  case unreg =>
    have e : thrs c s'.log = thrs c s.log := by
      rw [hlog]; split <;> simp [thrs, extract]
    rw [e, hctx, hstk]
    by_cases hcn : c = c_1
    · subst hcn
      simp only [upd_same]
      rw [h0]
      by_cases hn : (s.ctxs c).native = t
      · rw [hn, upd_same, hold]; simp [tcount, Frame.task]
      · simp [upd_ne _ _ hn]
    · rw [upd_ne _ _ hcn, h0]
      by_cases hn : (s.ctxs c).native = t
      · rw [hn, upd_same, hold]; simp [tcount, Frame.task]
      · simp [upd_ne _ _ hn]
  case relLast =>
    have e1 : thrs c (((s.ctxs c_1).pend.map (Ev.dropped t c_1)).reverse) = [] := extract_drops _ _ (fun _ => rfl) _
    have e2 : (s'.ctxs c).depth = (s.ctxs c).depth ∧ (s'.ctxs c).native = (s.ctxs c).native := by
      rw [hctx]; grind [upd_app]
    rw [e2.1, e2.2, hlog, hstk, thrs_append, e1, h0]
    by_cases hn : (s.ctxs c).native = t
    · rw [hn, upd_same, hold]; simp [tcount, Frame.task]
    · simp [upd_ne _ _ hn]
  case start =>
    have h1 := pop_some hpop
    have hl : s.loc t = some c_1 := by
      rcases hf with ⟨-, h3, -⟩ | ⟨dl, rfl, -⟩
      · exact h3
      · exact h.prk t _ dl rest hold
    have h2 := (h.loc t c_1 hl).2.1
    have hft : f.task c = false := by
      rcases hf with ⟨h3, -, -⟩ | ⟨dl, rfl, -⟩
      · exact hp h3 c
      · rfl
    rw [hlog, hctx, hstk]
    simp only [thrs, extract] at h0 ⊢
    by_cases hcn : c = c_1
    · subst hcn
      have h3 : x.depth = (s.ctxs c).depth + 1 := h1.2.1
      have h4 : x.native = (s.ctxs c).native := h1.2.2.1
      rw [upd_same, h3, h4, h0]
      rw [h2, upd_same, hold]
      simp only [tcount, List.countP_cons, hft]
      simp [Frame.task]
      omega
    · have hc' : c_1 ≠ c := fun h => hcn h.symm
      rw [upd_ne _ _ hcn, h0]
      by_cases hn : (s.ctxs c).native = t
      · rw [hn, upd_same, hold]
        simp only [tcount, List.countP_cons, hft]
        simp [Frame.task, hc']
      · simp [upd_ne _ _ hn]
  case threw =>
    have h2 := h.tsk t _ c_1 (by rw [hold]; exact List.mem_cons_self) (by simp [Frame.task])
    rw [hlog, hctx, hstk, h0]
    simp only [thrs, extract]
    by_cases hc : c = c_1
    · subst hc
      rw [h2.2.1, upd_same, hold]
      simp [tcount, Frame.task]
      omega
    · have hc' : c_1 ≠ c := fun h => hc h.symm
      by_cases hn : (s.ctxs c).native = t
      · rw [hn, upd_same, hold]; simp [tcount, Frame.task, hc']
      · simp [upd_ne _ _ hn, hc']
  case ran =>
    rw [hlog, hctx, hstk, h0]
    by_cases hn : (s.ctxs c).native = t
    · rw [hn, upd_same, hold]
      simp only [tcount, List.countP_cons]
      simp [Frame.task]
    · simp [upd_ne _ _ hn]
  case spawn =>
    have h2 : s.stk n = [] := (h.free n (by simp [hfree])).1
    rw [hlog, hctx, hstk, h0]
    simp only [thrs, extract]
    by_cases hn : (s.ctxs c).native = t
    · rw [hn, upd_same, hold]; simp [tcount, Frame.task]
    · rw [upd_ne _ _ hn]
      by_cases hn' : (s.ctxs c).native = n
      · rw [hn', upd_same, h2]; simp [tcount, Frame.task]
      · simp [upd_ne _ _ hn']
  case halt => rw [hlog, hctx, hstk]; exact h0
  case fin => rw [hlog, hctx, hstk]; exact h0
  case rewait =>
    rw [hlog, hctx, hstk]
    grind [upd_app]
  all_goals
    have e1 : thrs c s'.log = thrs c s.log := by
      rw [hlog]; try simp [thrs, extract]
    have e2 : (s'.ctxs c).depth = (s.ctxs c).depth ∧ (s'.ctxs c).native = (s.ctxs c).native := by
      rw [hctx]; grind [upd_app]
    rw [e2.1, e2.2, hstk, e1, h0]
    by_cases hn : (s.ctxs c).native = t
    · rw [hn, upd_same, hold]
      first
        | (simp [tcount, Frame.task]; done)
        | simp [tcount, hp hf, hgt]
    · rw [upd_ne _ _ hn]

theorem QInv.wake' {C : Client τ φ δ χ} {s s' : St τ φ δ} (h : WF s) (q : QInv s) {t : Nat} (he : Eff C s t s') :
    ∀ u c dl rest, s'.stk u = .core (.parked c dl) :: rest →
    ((s'.ctxs c).pend ≠ [] ∨ (s'.ctxs c).exit = true → (s'.ctxs c).wakeup = true) ∧
    ((s'.ctxs c).wakeup = true → (s'.ctxs c).cv = true) := by
  intro u c dl0 rest0 hs
  have hL : (Frame.core (.parked c dl0) : Frame τ φ).leaf = true := rfl
  have ht := h.tail t
  have hp := @plain_leaf τ φ
  have h0 := q.wake u c dl0
  have hl0 := h.prk u c dl0
  have hlt := h.loc t
  have hlu := h.loc u
  by_cases hut : u = t
  · subst hut
    cases he
    case ctl =>
      exfalso
      rw [hstk, upd_same] at hs
      rw [hold] at ht
      cases new with
      | nil => simp at hs; grind
      | cons g new => grind
    case freed =>
      exfalso
      rw [hstk, upd_same] at hs
      rw [hold] at ht
      cases new with
      | nil => simp at hs; grind
      | cons g new => grind
    case halt => rw [hstk] at hs; rw [hctx]; exact h0 _ hs
    case fin => rw [hstk, hold] at hs; simp at hs
    case rewait =>
      rw [hstk] at hs
      rw [hctx]
      have h1 := h0 _ hs
      grind [upd_app, Ctx.pend]
    case park =>
      rw [hstk, upd_same] at hs
      simp at hs
      obtain ⟨⟨rfl, -⟩, -⟩ := hs
      rw [pop_none] at hpop
      rw [hctx]
      simp only [upd_same]
      refine ⟨?_, by simp⟩
      rintro (h1 | h1)
      · exact absurd hpop h1
      · simp [hexit] at h1
    all_goals
      exfalso
      rw [hstk] at hs
      grind [upd_app]
  · have hold' : ∃ r, s.stk u = .core (.parked c dl0) :: r := by
      cases he
      case spawn =>
        rw [hstk, upd_ne _ _ hut] at hs
        by_cases hun : u = n
        · subst hun; simp at hs
        · rw [upd_ne _ _ hun] at hs; exact ⟨_, hs⟩
      all_goals
        rw [hstk] at hs
        try rw [upd_ne _ _ hut] at hs
        exact ⟨_, hs⟩
    obtain ⟨r, hr⟩ := hold'
    have h1 := h0 r hr
    have h2 := hlu c (hl0 r hr)
    have hpt := h.prk t
    cases he
    case regNew =>
      rw [hctx, upd_ne _ _ (by omega)]
      exact h1
    case start =>
      have hl : s.loc t = some c_1 := by
        rcases hf with ⟨-, h3, -⟩ | ⟨dl, rfl, -⟩
        · exact h3
        · exact h.prk t _ dl rest hold
      have h3 := hlt c_1 hl
      rw [hctx]
      rw [upd_ne _ _ (by rintro rfl; exact hut (h2.2.1.symm.trans h3.2.1))]
      exact h1
    case rewait =>
      have h3 := hlt c_1 (hpt _ _ _ hold)
      rw [hctx]
      rw [upd_ne _ _ (by rintro rfl; exact hut (h2.2.1.symm.trans h3.2.1))]
      exact h1
    case parkRet =>
      have h3 := hlt c_1 (hpt _ _ _ hold)
      rw [hctx]
      rw [upd_ne _ _ (by rintro rfl; exact hut (h2.2.1.symm.trans h3.2.1))]
      exact h1
    case park =>
      have h3 := hlt c_1 hlc
      rw [hctx]
      rw [upd_ne _ _ (by rintro rfl; exact hut (h2.2.1.symm.trans h3.2.1))]
      exact h1
    all_goals
      rw [hctx]
      grind [upd_app, Ctx.pend]

theorem QInv.exit' {C : Client τ φ δ χ} {s s' : St τ φ δ} (h : WF s) (q : QInv s) {t : Nat} (he : Eff C s t s') :
    ∀ c, (s'.ctxs c).exit = true ↔ Ev.exitSet c ∈ s'.log := by
  intro c
  have h0 := q.exit c
  cases he
  case ctl =>
    have : Ev.exitSet c ∉ es := fun hm => by have := hes _ hm; simp [Ev.neutral] at this
    rw [hlog, hctx]; simp [this, h0]
  case freed =>
    have : Ev.exitSet c ∉ es := fun hm => by have := hes _ hm; simp [Ev.neutral] at this
    rw [hlog, hctx]
    by_cases hc : c = c_1
    · subst hc; simp [this, h0]
    · simp [this, h0, upd_ne _ _ hc]
  case start =>
    have h1 := pop_some hpop
    rw [hlog, hctx]
    grind [upd_app]
  case regNew =>
    have h1 := h.dfl s.nctx (Nat.le_refl _)
    rw [hlog, hctx]
    by_cases hc : c = s.nctx
    · subst hc; rw [h1] at h0; simpa using h0
    · simp [h0, upd_ne _ _ hc]
  case unreg =>
    rw [hlog, hctx]
    split <;> grind [upd_app]
  case relLast =>
    rw [hlog, hctx]
    by_cases hc : c = c_1
    · subst hc; simp [h0]
    · simp [h0, upd_ne _ _ hc]
  all_goals
    rw [hlog, hctx]
    grind [upd_app]

theorem QInv.step {C : Client τ φ δ χ} {s s' : St τ φ δ} (h : WF s) (q : QInv s) (l : Lbl χ)
    (hs : step C s l = some s') : QInv s' := by
  cases l with
  | tick n =>
    rw [step_tick C s s' n hs]
    exact { cons := q.cons, alive := q.alive, depth := q.depth, fin := q.fin, wake := q.wake, exit := q.exit }
  | th t ch =>
    have he := step_eff C s s' t ch hs
    exact { cons := q.cons' h he, alive := q.alive' h he, depth := q.depth' h he, fin := q.fin' h he,
            wake := q.wake' h he, exit := q.exit' h he }

theorem QInv.reach {C : Client τ φ δ χ} {d : δ} {f : φ} {s : St τ φ δ} (h : Reach C d f s) : QInv s :=
  Reach.induct QInv (.init d f) (fun _ l _ hr ho hs => QInv.step (WF.reach hr) ho l hs) h

end
end Core
end Itc
