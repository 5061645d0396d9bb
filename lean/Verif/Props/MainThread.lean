import Verif.Core.Called
import Verif.Core.Stay
import Verif.Core.TopOnly
import Verif.Core.FragDemo
import Verif.Props.Count

/-!
# C71: main_thread::get_id

`main_thread::get_id` (thread.cpp:388-395) reads `main_thread_id`, in the model `St.mainId`.
-/
namespace Itc
open Core
namespace Core
section
variable {τ φ δ χ : Type} {C : Client τ φ δ χ} {d : δ} {f0 : φ} {s s' : St τ φ δ}

/-- Thread `t` is registered, under the id that `get_id` returns, and knows it. -/
def Known (s : St τ φ δ) (t : Nat) : Prop := ∃ c, s.loc t = some c ∧ InReg s c

theorem rs_own' {t : Nat} {rest : List (Frame τ φ)} {g : Frame τ φ} (hr : Reach C d f0 s) (h : RsPh t rest g s) {ch : Ch χ}
    (hs : step C s (.th t ch) = some s') : (∃ g', RsPh t rest g' s') ∨ s'.stk t = rest ∧ Known s' t := by
  rcases rs_own hr h hs with h1 | ⟨h1, c, h2⟩
  · exact .inl h1
  refine .inr ⟨h1, ?_⟩
  rcases h.2 with rfl | ⟨c, rfl⟩ | ⟨c, fn, v, rfl, h3, h4⟩
  · rcases step_core hs h.1 with ⟨-, hc⟩ | ⟨e, -, rfl⟩
    · exfalso
      simp only [stepCore] at hc
      split at hc
      · contradiction
      split at hc <;> obtain rfl := Option.some.inj hc
      · simp [St.stk, St.setStk] at h1
      · simp [St.stk, St.setStk] at h1
    · have := h.1.symm.trans h1
      simp at this
  · rcases step_core hs h.1 with ⟨-, hc⟩ | ⟨e, -, rfl⟩
    · exfalso
      simp only [stepCore] at hc
      obtain rfl := Option.some.inj hc
      simp [St.stk, St.setStk] at h1
    · have := h.1.symm.trans h1
      simp at this
  · rcases step_core hs h.1 with ⟨-, hc⟩ | ⟨e, -, rfl⟩
    · simp only [stepCore] at hc
      split at hc
      · obtain rfl := Option.some.inj hc
        simp [St.stk, St.setStk] at h1
      · obtain rfl := Option.some.inj hc
        exact ⟨c, by simpa [St.ret, St.loc, St.setCtx] using h3, h4⟩
    · exact ⟨c, h3, h4⟩

/-- The frames of `init`: the counter was incremented; `register_this_thread` is being executed, or the thread is registered. -/
def InitOK (s : St τ φ δ) : Prop :=
  ∀ t pre cb rest, s.stk t = pre ++ .core (.initCfg cb) :: rest → .inc t ∈ s.log ∧
    ((∃ g, pre = [g] ∧ RsPh t (.core (.initCfg cb) :: rest) g s) ∨ pre = [] ∧ Known s t)

/-- The frame of `init` after its registration is pushed only by `init`, when the counter was 0. -/
theorem initCfg_new {t : Nat} {ch : Ch χ} (hs : step C s (.th t ch) = some s') {pre rest : List (Frame τ φ)} {cb : Option φ}
    (hst : s'.stk t = pre ++ .core (.initCfg cb) :: rest) (hin : ¬ ∃ pre0, s.stk t = pre0 ++ .core (.initCfg cb) :: rest) :
    s.stk t = .core (.initIn cb) :: rest ∧ pre = [.core (.regLook none)] ∧ s.initCount = 0 ∧ .inc t ∈ s'.log := by
  have old : ∀ {top r0 new}, s.stk t = top :: r0 → s'.stk t = new ++ r0 → ∃ p, new = pre ++ .core (.initCfg cb) :: p ∧ rest = p ++ r0 := by
    intro top r0 new h1 h2
    rw [hst] at h2
    rcases split_at h2.symm with h | ⟨p, rfl, hp⟩
    · exact h
    · exact absurd ⟨top :: p, by rw [h1, hp]; rfl⟩ hin
  have same : s'.stk t = s.stk t → False := fun h => hin ⟨pre, h ▸ hst⟩
  have nil : ∀ {p : List (Frame τ φ)}, [] = pre ++ .core (.initCfg cb) :: p → False := by intro p h; simp at h
  have one : ∀ {x : Frame τ φ} {p}, [x] = pre ++ .core (.initCfg cb) :: p → x = .core (.initCfg cb) := by
    intro x p h
    cases pre with
    | nil => simp at h; exact h.1
    | cons y pre => have := congrArg List.length h; simp at this
  have two : ∀ {x y : Frame τ φ} {p}, [x, y] = pre ++ .core (.initCfg cb) :: p →
      x = .core (.initCfg cb) ∨ pre = [x] ∧ y = .core (.initCfg cb) ∧ p = [] := by
    intro x y p h
    cases pre with
    | nil => simp at h; exact .inl h.1
    | cons z pre =>
      cases pre with
      | nil => simp at h; exact .inr ⟨by rw [h.1], h.2.1, h.2.2⟩
      | cons w pre => have := congrArg List.length h; simp at this
  cases step_cl hs with
  | halt e hexc hst' => exact (same hst').elim
  | fin hold hst' => rw [hst'] at hst; simp at hst
  | task e f k' r0 hexc hold hf hst' hexc' =>
    obtain ⟨p, hp, -⟩ := old (new := [_, _]) hold hst'
    rcases two hp with h | ⟨-, h, -⟩ <;> cases h
  | cpop e f r0 hexc hold hf hst' => obtain ⟨p, hp, -⟩ := old (new := []) hold hst'; exact (nil hp).elim
  | «catch» e g g' r0 hexc hold hg hst' => obtain ⟨p, hp, -⟩ := old (new := [_]) hold hst'; cases one hp
  | pop e g r0 hexc hold hg hst' => obtain ⟨p, hp, -⟩ := old (new := []) hold hst'; exact (nil hp).elim
  | cl f r0 d' a hexc hold hstep hdata hact =>
    cases a with
    | goto y => obtain ⟨p, hp, -⟩ := old (new := [_]) hold hact.1; cases one hp
    | push y z => obtain ⟨p, hp, -⟩ := old (new := [_, _]) hold hact.1; rcases two hp with h | ⟨-, h, -⟩ <;> cases h
    | call b y =>
      obtain ⟨p, hp, -⟩ := old (new := [_, _]) hold hact.1
      rcases two hp with h | ⟨-, h, -⟩
      · cases b <;> cases h
      · cases h
    | ret v => obtain ⟨p, hp, -⟩ := old (new := []) hold hact.1; exact (nil hp).elim
    | throw e => obtain ⟨p, hp, -⟩ := old (new := []) hold hact.1; exact (nil hp).elim
    | terminate => exact (same hact.1).elim
  | core f r0 hexc hold hcs hdata hcore =>
    cases hcs with
    | pop v h hst' => obtain ⟨p, hp, -⟩ := old (new := []) hold hst'; exact (nil hp).elim
    | rethrow e h hst' => obtain ⟨p, hp, -⟩ := old (new := []) hold hst'; exact (nil hp).elim
    | ub h hst' he => exact (same hst').elim
    | «to» new h hst' hexc' hrv =>
      obtain ⟨p, hp, hrest⟩ := old hold hst'
      cases h
      case initIn cb' =>
        rcases two hp with h | ⟨rfl, h, rfl⟩
        · cases h
        cases h
        obtain rfl : rest = r0 := hrest
        simp only [stepCore] at hcore
        split at hcore <;> obtain rfl := Option.some.inj hcore
        · rw [ret_stk'] at hst
          exact absurd hst top_ne
        · rename_i h0
          exact ⟨hold, rfl, by simpa using h0, by simp [St.ev, St.setStk]⟩
      all_goals exfalso
      all_goals first
        | (cases one hp; done)
        | (rcases two hp with h | ⟨-, h, -⟩ <;> cases h; done)

theorem init_ok (hr : Reach C d f0 s) : InitOK s := by
  refine Reach.induct InitOK ?_ ?_ hr
  · intro t pre cb rest hst
    by_cases h1 : t = 0
    · subst h1
      simp only [Core.init, St.stk, upd_same] at hst
      cases pre with
      | nil => cases hst
      | cons x pre => have := congrArg List.length hst; simp at this
    · simp [Core.init, St.stk, upd_ne _ _ h1] at hst
  intro s l s' hr q hs
  have mono : ∀ {e}, e ∈ s.log → e ∈ s'.log := fun h => (Later.refl.snoc hs).mem h
  cases l with
  | tick n => rw [step_tick _ s s' n hs]; exact q
  | th u ch =>
    intro t pre cb rest hst
    by_cases hu : t = u
    · subst hu
      by_cases hin : ∃ pre0, s.stk t = pre0 ++ .core (.initCfg cb) :: rest
      · obtain ⟨pre0, h0⟩ := hin
        obtain ⟨hinc, ⟨g, rfl, hph⟩ | ⟨rfl, hk⟩⟩ := q t pre0 cb rest h0
        · refine ⟨mono hinc, ?_⟩
          rcases rs_own' hr hph hs with ⟨g', hg'⟩ | ⟨h1, h2⟩
          · obtain ⟨rfl, -⟩ := top_uniq (a := pre) (b := [g']) (hst.symm.trans hg'.1)
            exact .inl ⟨g', rfl, hg'⟩
          · obtain ⟨rfl, -⟩ := top_uniq (a := pre) (b := []) (hst.symm.trans h1)
            exact .inr ⟨rfl, h2⟩
        · rcases step_core hs h0 with ⟨-, hc⟩ | ⟨e, -, rfl⟩
          · exfalso
            simp only [stepCore] at hc
            split at hc
            · contradiction
            split at hc <;> obtain rfl := Option.some.inj hc
            · rw [ret_stk'] at hst
              exact absurd hst top_ne
            · rw [stk_setStk'] at hst
              obtain ⟨-, h⟩ := top_uniq (a := pre) (b := [_]) hst.symm
              cases h
          · obtain ⟨rfl, -⟩ := top_uniq (a := pre) (b := []) (hst.symm.trans h0)
            exact ⟨mono hinc, .inr ⟨rfl, hk⟩⟩
      · obtain ⟨-, rfl, -, h⟩ := initCfg_new hs hst hin
        exact ⟨h, .inl ⟨_, rfl, hst, .inl rfl⟩⟩
    · rcases step_stk_other' (FreeOK.reach hr) hu hs with h1 | ⟨h0, f, h1⟩
      · have hst' := h1 ▸ hst
        obtain ⟨hinc, h⟩ := q t pre cb rest hst'
        refine ⟨mono hinc, ?_⟩
        rcases h with ⟨g, rfl, hph⟩ | ⟨rfl, c, h2, h3⟩
        · exact .inl ⟨g, rfl, rs_env hr hph hs (by rintro ch' h; cases h; exact hu rfl)⟩
        · have ho := step_thr_other (FreeOK.reach hr) hu (by rw [hst']; simp) hs
          exact .inr ⟨rfl, c, ho.2.2.2.trans h2, (pend_keep (WF.reach hr) (step_eff C s s' u ch hs) hu h2 h3).1⟩
      · rw [h1] at hst
        cases pre with
        | nil => cases hst
        | cons x pre => have := congrArg List.length hst; simp at this

theorem stepCore_main (C : Client τ φ δ χ) (s s' : St τ φ δ) (t : Nat) (f : CF τ φ) (rest : List (Frame τ φ)) (ch : Ch χ)
    (h : stepCore C s t f rest ch = some s') : s'.mainId = s.mainId ∨ (∃ cb, f = .initCfg cb) ∧ s'.mainId = s.getId t := by
  cases f with
  | retv d => cases d <;> simp only [stepCore] at h <;> obtain rfl := Option.some.inj h <;> exact .inl rfl
  | destroyList c l f v => cases l <;> simp only [stepCore] at h <;> obtain rfl := Option.some.inj h <;> exact .inl rfl
  | regDone c self => cases self <;> simp only [stepCore] at h <;> obtain rfl := Option.some.inj h <;> exact .inl rfl
  | sdNotify l T =>
    cases l with
    | cons i l => simp only [stepCore] at h; obtain rfl := Option.some.inj h; exact .inl rfl
    | nil =>
      simp only [stepCore] at h
      repeat' (split at h)
      all_goals first | contradiction | (obtain rfl := Option.some.inj h; exact .inl rfl)
  | initCfg cb =>
    simp only [stepCore] at h
    repeat' (split at h)
    all_goals first | contradiction | (obtain rfl := Option.some.inj h; exact .inr ⟨⟨_, rfl⟩, rfl⟩)
  | _ =>
    simp only [stepCore] at h
    repeat' (split at h)
    all_goals first | contradiction | (obtain rfl := Option.some.inj h; exact .inl rfl)

theorem step_main {t : Nat} {ch : Ch χ} (h0 : step C s (.th t ch) = some s') :
    s'.mainId = s.mainId ∨ (∃ cb rest, s.stk t = .core (.initCfg cb) :: rest) ∧ (s.thr t).exc = none ∧ s'.mainId = s.getId t := by
  simp only [Core.step] at h0
  split at h0
  · contradiction
  split at h0
  · contradiction
  split at h0
  · obtain rfl := Option.some.inj h0
    left
    unfold stepExc
    repeat' split
    all_goals rfl
  rename_i hexc
  split at h0
  · obtain rfl := Option.some.inj h0; exact .inl rfl
  · rename_i f rest hst
    rcases stepCore_main C s s' t f rest ch h0 with h | ⟨⟨cb, rfl⟩, h⟩
    · exact .inl h
    · exact .inr ⟨⟨cb, rest, hst⟩, hexc, h⟩
  · simp only [stepClient] at h0
    split at h0
    · contradiction
    · split at h0 <;> obtain rfl := Option.some.inj h0 <;> exact .inl rfl

end
end Core

section
variable {τ φ δ χ : Type} {C : Client τ φ δ χ} {d : δ} {f0 : φ} {s s' s0 : St τ φ δ}

/-- Thread `t` has been registered and got the identifier `i`; it has not been unregistered yet, and `this_thread::get_id` returns `i` on it. -/
def RegAs (s : St τ φ δ) (t i : Nat) : Prop :=
  ∃ c, .registered c i t ∈ s.log ∧ (i, c) ∈ s.contexts ∧ s.getId t = i

/-- A step of thread `t` in `init` that makes `t` the main thread: a valid identifier, of the registered thread `t`, which has incremented the counter of `init`. -/
def Makes (C : Client τ φ δ χ) (s : St τ φ δ) (t : Nat) (s' : St τ φ δ) : Prop :=
  (∃ ch, step C s (.th t ch) = some s') ∧ (∃ cb rest, s.stk t = .core (.initCfg cb) :: rest) ∧ .inc t ∈ s.log ∧ s'.mainId ≠ 0 ∧ RegAs s t s'.mainId

theorem Core.Known.regAs (hr : Reach C d f0 s) {t : Nat} (h : Known s t) : s.getId t ≠ 0 ∧ RegAs s t (s.getId t) := by
  obtain ⟨c, h1, i, h2⟩ := h
  have hwf := WF.reach hr
  obtain ⟨h3, h4, -⟩ := hwf.mem i c h2
  have h5 : s.getId t = (s.ctxs c).id := by
    show (match s.loc t with | none => 0 | some c => (s.ctxs c).id) = _
    rw [h1]
  have h6 := (hwf.loc t c h1).2.1
  rw [h5]
  exact ⟨by have := hwf.ids c h3; omega, c, ((LInv.reach hr).regd c _ t).2 ⟨h3, rfl, h6⟩, by rw [h4]; exact h2, h5⟩

/-- **C71**: `main_thread::get_id` changes only when a thread that has incremented the counter of `init` from 0, and is registered, makes itself the main thread. -/
theorem C71_set (hr : Reach C d f0 s) {l : Lbl χ} (hs : step C s l = some s') (h : s'.mainId ≠ s.mainId) : ∃ t, Makes C s t s' := by
  cases l with
  | tick n => rw [step_tick _ s s' n hs] at h; exact absurd rfl h
  | th t ch =>
    rcases step_main hs with h1 | ⟨⟨cb, rest, hst⟩, -, h1⟩
    · exact absurd h1 h
    obtain ⟨hinc, ⟨g, h2, -⟩ | ⟨-, hk⟩⟩ := init_ok hr t [] cb rest hst
    · cases h2
    exact ⟨t, ⟨ch, hs⟩, ⟨cb, rest, hst⟩, hinc, by rw [h1]; exact hk.regAs hr⟩

/-- At any time the value is the initial one, or some thread has made itself the main thread and the value is still the one of the last such thread. -/
theorem C71_stays (hr : Reach C d f0 s) (h : Later C s s') :
    s'.mainId = s.mainId ∨ ∃ sa t sb, Later C s sa ∧ Makes C sa t sb ∧ Later C sb s' ∧ s'.mainId = sb.mainId := by
  refine (h.ind (P := fun x => Reach C d f0 x ∧ Later C s x ∧
    (x.mainId = s.mainId ∨ ∃ sa t sb, Later C s sa ∧ Makes C sa t sb ∧ Later C sb x ∧ x.mainId = sb.mainId)) ?_ ⟨hr, .refl, .inl rfl⟩).2.2
  rintro x l y hs ⟨hx, hl, h⟩
  refine ⟨hx.step hs, hl.snoc hs, ?_⟩
  by_cases hne : y.mainId = x.mainId
  · rcases h with h | ⟨sa, t, sb, h1, h2, h3, h4⟩
    · exact .inl (hne.trans h)
    · exact .inr ⟨sa, t, sb, h1, h2, h3.snoc hs, hne.trans h4⟩
  · obtain ⟨t, h1⟩ := C71_set hx hs hne
    exact .inr ⟨x, t, y, hl, h1, .refl, rfl⟩

/-- `main_thread::get_id` is invalid, or the identifier of a thread that has called `init`; in particular it is invalid before the first call of `init`. -/
theorem C71_value (hr : Reach C d f0 s) : s.mainId = 0 ∨ ∃ t c, .inc t ∈ s.log ∧ .registered c s.mainId t ∈ s.log := by
  obtain ⟨ls, h⟩ := hr
  rcases C71_stays (d := d) (f0 := f0) ⟨[], rfl⟩ (s := Core.init d f0) ⟨ls, h⟩ with h1 | ⟨sa, t, sb, -, ⟨⟨ch, hs⟩, -, h2, -, c, h3, -⟩, h4, h5⟩
  · exact .inl h1
  · have hl : Later C sa s := (Later.refl.snoc hs).trans h4
    exact .inr ⟨t, c, hl.mem h2, by rw [h5]; exact hl.mem h3⟩

/-- Phases of a call of `init` by thread `t`. -/
def InitPh (C : Client τ φ δ χ) (s0 : St τ φ δ) (t : Nat) (g : Frame τ φ) (s : St τ φ δ) : Prop :=
  Later C s0 s ∧ ((∃ cb, g = .core (.initIn cb)) ∨ (∃ cb, g = .core (.initCfg cb)) ∨
    g = .core .initEnd ∧ ∃ sa sb, Later C s0 sa ∧ Makes C sa t sb ∧ Later C sb s)

theorem initPh (hr : Reach C d f0 s0) {t n : Nat} {cb : Option φ} {rest : List (Frame τ φ)} (hst : s0.stk t = .core (.initIn cb) :: rest)
    (hf : Frag C t rest s0 n s) : ∃ pre g, s.stk t = pre ++ g :: rest ∧ InitPh C s0 t g s := by
  refine Frag.ind (fun _ => InitPh C s0 t) hr ?_ ?_ ?_ hf
  · intro g hg
    rw [hst] at hg
    obtain ⟨rfl, -⟩ := List.cons.inj hg
    exact ⟨.refl, .inl ⟨cb, rfl⟩⟩
  · intro s1 n f1 ch s2 pre f2 hr1 h1 hφ hs h2
    have both : ∀ {P : Prop}, P → ((∃ c k, s2.log = .started t c k :: s1.log) → P) ∧ ((¬ ∃ c k, s2.log = .started t c k :: s1.log) → P) :=
      fun h => ⟨fun _ => h, fun _ => h⟩
    apply both
    refine ⟨hφ.1.snoc hs, ?_⟩
    have gone : s2.stk t = rest → ∀ {P : Prop}, P := fun h => absurd (h.symm.trans h2) top_ne
    have isf : ∀ {x p}, s2.stk t = p ++ x :: rest → f2 = x := fun hx => (top_uniq (h2.symm.trans hx)).2
    obtain ⟨hl, ⟨cb, rfl⟩ | ⟨cb, rfl⟩ | ⟨rfl, h⟩⟩ := hφ
    · rcases step_core hs h1 with ⟨-, h⟩ | ⟨e, -, rfl⟩
      · simp only [stepCore] at h
        split at h <;> obtain rfl := Option.some.inj h
        · exact gone (by rw [ret_stk'])
        · exact .inr (.inl ⟨cb, isf (p := [_]) (by rw [stk_setStk']; rfl)⟩)
      · exact .inl ⟨cb, isf (p := []) h1⟩
    · rcases step_core hs h1 with ⟨-, h⟩ | ⟨e, -, rfl⟩
      · obtain ⟨hinc, ⟨g, h3, -⟩ | ⟨-, hk⟩⟩ := init_ok hr1 t [] cb rest h1
        · cases h3
        have hk := hk.regAs hr1
        have hm : s2.mainId = s1.getId t := by
          simp only [stepCore] at h
          repeat' (split at h)
          all_goals first | contradiction | (obtain rfl := Option.some.inj h; rfl)
        have hmk : Makes C s1 t s2 := ⟨⟨ch, hs⟩, ⟨cb, rest, h1⟩, hinc, by rw [hm]; exact hk⟩
        simp only [stepCore] at h
        split at h
        · contradiction
        split at h <;> obtain rfl := Option.some.inj h
        · exact gone (by rw [ret_stk'])
        · exact .inr (.inr ⟨isf (p := [_]) (by rw [stk_setStk']; rfl), s1, _, hl, hmk, .refl⟩)
      · exact .inr (.inl ⟨cb, isf (p := []) h1⟩)
    · have keep : ∃ sa sb, Later C s0 sa ∧ Makes C sa t sb ∧ Later C sb s2 := h.imp fun sa h => h.imp fun sb h => ⟨h.1, h.2.1, h.2.2.snoc hs⟩
      rcases step_core hs h1 with ⟨-, h⟩ | ⟨e, -, rfl⟩
      · simp only [stepCore] at h
        obtain rfl := Option.some.inj h
        exact gone (by rw [ret_stk'])
      · exact gone (by simp [stepExc, St.stk])
  · intro s1 n f1 l s2 hr1 hφ hs _ _
    exact ⟨hφ.1.snoc hs, hφ.2.imp id fun h => h.imp id fun h => ⟨h.1, h.2.imp fun sa h => h.imp fun sb h => ⟨h.1, h.2.1, h.2.2.snoc hs⟩⟩⟩

/-- A call of `init` that has ended (also by an exception of the logging callback) found the library already initialised, or has made its thread the main thread. -/
theorem C71_init (hr : Reach C d f0 s0) {t n : Nat} {cb : Option φ} {rest : List (Frame τ φ)} (hst : s0.stk t = .core (.initIn cb) :: rest)
    (hf : Frag C t rest s0 n s) {l : Lbl χ} (hs : step C s l = some s') (hend : s'.stk t = rest) :
    (∃ sa, Later C s0 sa ∧ Later C sa s' ∧ sa.initCount ≠ 0) ∨ ∃ sa sb, Later C s0 sa ∧ Makes C sa t sb ∧ Later C sb s' := by
  obtain ⟨pre, g, h1, hl, hp⟩ := initPh hr hst hf
  have hr1 := hf.reach hr
  obtain ⟨rfl, ch, rfl⟩ := Frag.last (n := n) hr1 h1 hs hend
  have h1 : s.stk t = g :: rest := h1
  rcases hp with ⟨cb, rfl⟩ | ⟨cb, rfl⟩ | ⟨rfl, sa, sb, h2, h3, h4⟩
  · rcases step_core hs h1 with ⟨-, h⟩ | ⟨e, -, rfl⟩
    · simp only [stepCore] at h
      split at h
      · rename_i h0
        exact .inl ⟨s, hl, Later.refl.snoc hs, h0⟩
      · obtain rfl := Option.some.inj h
        rw [stk_setStk'] at hend
        exact absurd hend (top_ne (a := [_])).symm
    · exact absurd (hend.symm.trans h1) (top_ne (a := []))
  · rcases step_core hs h1 with ⟨-, h⟩ | ⟨e, -, rfl⟩
    · obtain ⟨hinc, ⟨g, h3, -⟩ | ⟨-, hk⟩⟩ := init_ok hr1 t [] cb rest h1
      · cases h3
      have hk := hk.regAs hr1
      have hm : s'.mainId = s.getId t := by
        simp only [stepCore] at h
        repeat' (split at h)
        all_goals first | contradiction | (obtain rfl := Option.some.inj h; rfl)
      exact .inr ⟨s, s', hl, ⟨⟨ch, hs⟩, ⟨cb, rest, h1⟩, hinc, by rw [hm]; exact hk⟩, .refl⟩
    · exact absurd (hend.symm.trans h1) (top_ne (a := []))
  · exact .inr ⟨sa, sb, h2, h3, h4.snoc hs⟩

/-- As long as no `shutdown` has decremented the counter: at most one thread is to become the main thread, none once there is a main thread. -/
theorem one_init (hr : Reach C d f0 s) (hd : decs s.log = 0) (hi : incs s.log < sizeMod) :
    (∀ t u pre pre' cb cb' rest rest', s.stk t = pre ++ .core (.initCfg cb) :: rest → s.stk u = pre' ++ .core (.initCfg cb') :: rest' → t = u) ∧
    (s.mainId ≠ 0 → ∀ t pre cb rest, s.stk t ≠ pre ++ .core (.initCfg cb) :: rest) := by
  refine Reach.induct (fun s : St τ φ δ => decs s.log = 0 → incs s.log < sizeMod →
    (∀ t u pre pre' cb cb' rest rest', s.stk t = pre ++ .core (.initCfg cb) :: rest → s.stk u = pre' ++ .core (.initCfg cb') :: rest' → t = u) ∧
    (s.mainId ≠ 0 → ∀ t pre cb rest, s.stk t ≠ pre ++ .core (.initCfg cb) :: rest)) ?_ ?_ hr hd hi
  · intro _ _
    have hno : ∀ t pre cb rest, (Core.init d f0 : St τ φ δ).stk t ≠ pre ++ .core (.initCfg cb) :: rest := by
      intro t pre cb rest hst
      have := (init_ok (C := C) (d := d) (f0 := f0) ⟨[], rfl⟩ t pre cb rest hst).1
      simp [Core.init] at this
    exact ⟨fun t u pre pre' cb cb' rest rest' h => absurd h (hno _ _ _ _), fun _ => hno⟩
  clear hr hd hi
  intro s l s' hr q hs hd hi
  cases l with
  | tick n => rw [step_tick _ s s' n hs] at hd hi ⊢; exact q hd hi
  | th v ch =>
    have hd0 : decs s.log = 0 := by cases step_cnt hs <;> omega
    have hi0 : incs s.log < sizeMod := by have := incs_mono hs; omega
    obtain ⟨q1, q2⟩ := q hd0 hi0
    have hcnt := C17_count_mod hr
    have cls : ∀ {t pre cb rest}, s'.stk t = pre ++ .core (.initCfg cb) :: rest → (∃ pre0, s.stk t = pre0 ++ .core (.initCfg cb) :: rest) ∨
        t = v ∧ incs s.log = 0 := by
      intro t pre cb rest hst
      by_cases hu : t = v
      · subst hu
        by_cases hin : ∃ pre0, s.stk t = pre0 ++ .core (.initCfg cb) :: rest
        · exact .inl hin
        · obtain ⟨-, -, h0, -⟩ := initCfg_new hs hst hin
          rw [h0, hd0, Nat.mod_eq_of_lt hi0] at hcnt
          exact .inr ⟨rfl, by simpa using hcnt.2.symm⟩
      · rcases step_stk_other' (FreeOK.reach hr) hu hs with h1 | ⟨h0, f, h1⟩
        · exact .inl ⟨pre, h1 ▸ hst⟩
        · rw [h1] at hst
          cases pre with
          | nil => cases hst
          | cons x pre => have := congrArg List.length hst; simp at this
    have noinc : incs s.log = 0 → ∀ t, .inc t ∉ s.log := by
      intro h t ht
      have := List.countP_eq_zero.1 h _ ht
      simp at this
    have nofr : incs s.log = 0 → ∀ {t pre cb rest}, s.stk t ≠ pre ++ .core (.initCfg cb) :: rest :=
      fun h t pre cb rest hst => noinc h t (init_ok hr t pre cb rest hst).1
    refine ⟨?_, ?_⟩
    · intro t u pre pre' cb cb' rest rest' ht hu
      rcases cls ht with ⟨p, h1⟩ | ⟨rfl, h1⟩ <;> rcases cls hu with ⟨p', h2⟩ | ⟨rfl, h2⟩
      · exact q1 _ _ _ _ _ _ _ _ h1 h2
      · exact absurd h1 (nofr h2)
      · exact absurd h2 (nofr h1)
      · rfl
    · intro hm t pre cb rest hst
      by_cases hne : s'.mainId = s.mainId
      · rw [hne] at hm
        rcases cls hst with ⟨p, h1⟩ | ⟨rfl, h1⟩
        · exact q2 hm _ _ _ _ h1
        · rcases C71_value hr with h2 | ⟨u, c, h2, -⟩
          · exact hm h2
          · exact noinc h1 u h2
      · rcases step_main hs with h1 | ⟨⟨cb', rest', h1⟩, hexc, -⟩
        · exact hne h1
        have hv : t = v := by
          rcases cls hst with ⟨p, h2⟩ | ⟨h2, -⟩
          · exact q1 _ _ _ _ _ _ _ _ h2 (show s.stk v = [] ++ _ from h1)
          · exact h2
        subst hv
        rcases step_core hs h1 with ⟨-, h⟩ | ⟨e, he, -⟩
        · have hrest : ∀ {p r}, rest' ≠ p ++ .core (.initCfg cb) :: r := by
            intro p r hr'
            have h3 : s.stk t = (.core (.initCfg cb') :: p) ++ .core (.initCfg cb) :: r := by rw [h1, hr']; rfl
            obtain ⟨-, ⟨g, h4, h5⟩ | ⟨h4, -⟩⟩ := init_ok hr t _ cb r h3
            · obtain ⟨rfl, rfl⟩ := List.cons.inj h4
              rcases h5.2 with h | ⟨c, h⟩ | ⟨c, fn, v, h, -⟩ <;> cases h
            · cases h4
          simp only [stepCore] at h
          split at h
          · contradiction
          split at h <;> obtain rfl := Option.some.inj h
          · rw [ret_stk'] at hst
            exact hrest hst
          · rw [stk_setStk'] at hst
            cases pre with
            | nil => cases hst
            | cons x pre =>
              cases pre with
              | nil => simp at hst
              | cons y pre => simp only [List.cons_append, List.cons.injEq] at hst; exact hrest hst.2.2
        · rw [hexc] at he; cases he

/-- Once there is a main thread, it remains the main thread until a `shutdown` decrements the counter (fewer than 2^64 calls of `init`). -/
theorem C71_fixed (hr : Reach C d f0 s) (h0 : s.mainId ≠ 0) (h : Later C s s') (hd : decs s'.log = 0) (hi : incs s'.log < sizeMod) :
    s'.mainId = s.mainId := by
  refine (h.ind (P := fun x => Reach C d f0 x ∧ (decs x.log = 0 → incs x.log < sizeMod → x.mainId = s.mainId)) ?_ ⟨hr, fun _ _ => rfl⟩).2 hd hi
  rintro x l y hs ⟨hx, ih⟩
  refine ⟨hx.step hs, fun hd hi => ?_⟩
  have hd0 : decs x.log = 0 := by
    cases l with
    | tick m => rw [step_tick C x y m hs] at hd; exact hd
    | th t ch => cases step_cnt hs <;> omega
  have hi0 : incs x.log < sizeMod := by have := incs_mono hs; omega
  have ih := ih hd0 hi0
  by_contra hne
  obtain ⟨t, -, ⟨cb, rest, h1⟩, -⟩ := C71_set hx hs (by rw [ih]; exact hne)
  exact (one_init hx hd0 hi0).2 (by rw [ih]; exact h0) t [] cb rest h1

end

/-- Main initialises the library, starts thread 1 and shuts the library down; thread 1 initialises it. -/
def demoMain : List (Act Nat Nat) :=
  [.call (.init (some 7)) 2, .call (.spawn 1 5) 3, .call (.shutdown 0) 4, .ret .unit, .call (.init none) 6, .ret .unit, .ret .unit]

/-- Hypotheses of `C71_init` and `C71_set`: the call of `init` by main makes main the main thread, before the logging callback is called. -/
example : ∃ s0 n s s', Reach (tableClient (prog demoMain)) () 1 s0 ∧ s0.stk 0 = .core (.initIn (some 7)) :: [.client 2] ∧
    Frag (tableClient (prog demoMain)) 0 [.client 2] s0 n s ∧ step (tableClient (prog demoMain)) s (.th 0 .go) = some s' ∧
    (s0.mainId, s.mainId, s'.mainId, decide (s.stk 0 = [.core .initEnd, .client 2]), decide (s'.stk 0 = [.client 2])) = (0, 1, 1, true, true) :=
  fragWit (ls1 := go 0 1) (ls2 := go 0 6)
    (obs := fun s0 _ s s' => (s0.mainId, s.mainId, s'.mainId, decide (s.stk 0 = [.core .initEnd, .client 2]), decide (s'.stk 0 = [.client 2]))) (by decide +kernel)

/-- Hypotheses of `C71_fixed`: main is the main thread, then thread 1 also calls `init`. -/
example : ∃ s s', Reach (tableClient (prog demoMain)) () 1 s ∧ Later (tableClient (prog demoMain)) s s' ∧
    (s.mainId, incs s.log, s'.mainId, incs s'.log, decs s'.log, decide (s'.stk 1 = [.client 6])) = (1, 1, 1, 2, 0, true) := by
  have h : (exec demoMain (go 0 10)).bind (fun s => (run (tableClient (prog demoMain)) s (go 1 2)).map fun s' =>
      (s.mainId, incs s.log, s'.mainId, incs s'.log, decs s'.log, decide (s'.stk 1 = [.client 6]))) = some (1, 1, 1, 2, 0, true) := by decide +kernel
  obtain ⟨s, h1, h2⟩ := Option.bind_eq_some_iff.1 h
  obtain ⟨s', h3, h4⟩ := Option.map_eq_some_iff.1 h2
  exact ⟨s, s', exec_reach h1, ⟨_, h3⟩, h4⟩

/-- Both alternatives of `C71_stays`: when main has shut the library down it is not registered any more, and still the main thread;
    then `init` makes thread 1 the main thread. -/
example : ∃ s s', Reach (tableClient (prog demoMain)) () 1 s ∧ Later (tableClient (prog demoMain)) s s' ∧
    (s.mainId, s.contexts.length, s.getId 0, s'.mainId, s'.getId 1) = (1, 0, 0, 2, 2) := by
  have h : (exec demoMain (go 0 19)).bind (fun s => (run (tableClient (prog demoMain)) s (go 1 6)).map fun s' =>
      (s.mainId, s.contexts.length, s.getId 0, s'.mainId, s'.getId 1)) = some (1, 0, 0, 2, 2) := by decide +kernel
  obtain ⟨s, h1, h2⟩ := Option.bind_eq_some_iff.1 h
  obtain ⟨s', h3, h4⟩ := Option.map_eq_some_iff.1 h2
  exact ⟨s, s', exec_reach h1, ⟨_, h3⟩, h4⟩

end Itc
