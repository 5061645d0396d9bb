import Verif.Obj.Inv

/-!
# Who owns a native thread handle (proof infrastructure, no claims)
-/
namespace Itc
namespace Obj
open Core
section
variable {τ φ δ χ : Type}

theorem stepCore_only {δ : Type} {φ : Type} (C : Client τ φ δ χ) (s s' : St τ φ δ) (t : Nat) (f : CF τ φ) (rest : List (Frame τ φ))
    (ch : Ch χ) (hrun : (s.thr t).status = .running) (h : stepCore C s t f rest ch = some s')
    (hf : (∀ n g, f ≠ .spawnIn n g) ∧ (∀ n, f ≠ .joinIn n) ∧ (∀ n, f ≠ .detachIn n)) : OnlyT s s' t := by
  have hid : s.thr = upd s.thr t (s.thr t) := (upd_self _ _).symm
  cases f
  case spawnIn n f => exact absurd rfl (hf.1 n f)
  case joinIn n => exact absurd rfl (hf.2.1 n)
  case detachIn n => exact absurd rfl (hf.2.2 n)
  case sdNotify l T =>
    cases l <;> simp only [stepCore] at h
    all_goals repeat' split at h
    all_goals first
      | contradiction
      | (obtain rfl := Option.some.inj h
         first
         | exact ⟨_, rfl, hrun, rfl⟩
         | exact ⟨_, hid, hrun, rfl⟩)
  case destroyList c l f v =>
    cases l <;> simp only [stepCore] at h
    all_goals repeat' split at h
    all_goals first
      | contradiction
      | (obtain rfl := Option.some.inj h
         first
         | exact ⟨_, rfl, hrun, rfl⟩
         | exact ⟨_, hid, hrun, rfl⟩)
  all_goals
    simp only [stepCore] at h
    repeat' split at h
  all_goals first
    | contradiction
    | (obtain rfl := Option.some.inj h
       first
       | exact ⟨_, rfl, hrun, rfl⟩
       | exact ⟨_, hid, hrun, rfl⟩
       | exact ⟨{ s.thr t with loc := some _, stack := _ }, upd_upd _ _ _ _ |>.trans (by simp; rfl), hrun, rfl⟩
       | exact ⟨{ s.thr t with loc := none, stack := rest, rv := .unit }, by simp [St.ret], hrun, rfl⟩)

/-- The thread is neither detached nor joined. -/
def Live (s : OSt τ φ δ) (n : Nat) : Prop := (s.thr n).status ≠ .free ∧ (s.thr n).detached = false

theorem live_only {s s' : OSt τ φ δ} {t n : Nat} (h : OnlyT s s' t) (hn : Live s n) : Live s' n := by
  obtain ⟨x, h1, h2, h3⟩ := h
  unfold Live
  rw [h1]
  by_cases hnt : n = t
  · subst hnt; simp [h2, h3, hn.2]
  · rw [upd_ne _ _ hnt]; exact hn

/-- A handle stays valid except in `join` and `detach` of it. -/
theorem live_step {C : Client τ (OFrame φ) (OData δ) χ} {s s' : OSt τ φ δ} {t n : Nat} {ch : Ch χ} (hs : step C s (.th t ch) = some s')
    (hn : Live s n) (hj : ∀ rest, s.stk t ≠ .core (.joinIn n) :: rest) (hd : ∀ rest, s.stk t ≠ .core (.detachIn n) :: rest) : Live s' n := by
  simp only [step] at hs
  split at hs
  · contradiction
  split at hs
  · contradiction
  rename_i hrun
  have hrun : (s.thr t).status = .running := by simpa using hrun
  have hid : s.thr = upd s.thr t (s.thr t) := (upd_self _ _).symm
  split at hs
  · obtain rfl := Option.some.inj hs
    refine live_only (t := t) ?_ hn
    unfold stepExc
    repeat' split
    all_goals first | exact ⟨_, rfl, hrun, rfl⟩ | exact ⟨_, hid, hrun, rfl⟩
  · split at hs
    · obtain rfl := Option.some.inj hs
      unfold Live stepEnd
      by_cases hnt : n = t
      · subst hnt; simp [hn.2]
      · simp only [upd_ne _ _ hnt]; exact hn
    · rename_i f rest hst
      have hst : s.stk t = .core f :: rest := hst
      by_cases hf : (∀ n g, f ≠ .spawnIn n g) ∧ (∀ n, f ≠ .joinIn n) ∧ (∀ n, f ≠ .detachIn n)
      · exact live_only (stepCore_only C s s' t f rest ch hrun hs hf) hn
      · cases f with
        | spawnIn m g =>
          simp only [stepCore] at hs
          split at hs
          · rename_i hfr
            have hne : n ≠ m := by rintro rfl; exact hn.1 hfr
            obtain rfl := Option.some.inj hs
            unfold Live St.ret
            by_cases hnt : n = t
            · subst hnt; simp only [upd_same, upd_ne _ _ hne]; exact hn
            · simp only [upd_ne _ _ hnt, upd_ne _ _ hne]; exact hn
          · contradiction
        | joinIn m =>
          have hne : n ≠ m := by rintro rfl; exact hj _ hst
          simp only [stepCore] at hs
          split at hs
          · obtain rfl := Option.some.inj hs
            unfold Live St.ret
            by_cases hnt : n = t
            · subst hnt; simp only [upd_same, upd_ne _ _ hne]; exact hn
            · simp only [upd_ne _ _ hnt, upd_ne _ _ hne]; exact hn
          · contradiction
        | detachIn m =>
          have hne : n ≠ m := by rintro rfl; exact hd _ hst
          simp only [stepCore] at hs
          split at hs
          all_goals
            obtain rfl := Option.some.inj hs
            unfold Live St.ret
            by_cases hnt : n = t
            · subst hnt; simp only [upd_same, upd_ne _ _ hne]; exact hn
            · simp only [upd_ne _ _ hnt, upd_ne _ _ hne]; exact hn
        | _ => exact absurd ⟨by simp, by simp, by simp⟩ hf
    · simp only [stepClient] at hs
      split at hs
      · contradiction
      · refine live_only (t := t) ?_ hn
        split at hs <;> obtain rfl := Option.some.inj hs
        all_goals first | exact ⟨_, rfl, hrun, rfl⟩ | exact ⟨_, hid, hrun, rfl⟩

/-! ## The places where a handle can be -/

def topH : List (Frame τ (OFrame φ)) → Option Nat
  | .core (.joinIn n) :: _ => some n
  | .core (.detachIn n) :: _ => some n
  | .client (.mkReg _ n) :: _ => some n
  | _ => none

def slotH (d : OData δ) (o : Nat) : Option Nat := (d.slot o).bind (·.obj.native)

/-- The handle held at a place: an object, or a thread that is constructing, joining or detaching. -/
def hf (s : OSt τ φ δ) : Nat ⊕ Nat → Option Nat
  | .inl o => slotH s.data o
  | .inr t => topH (s.stk t)

structure Own (s : OSt τ φ δ) : Prop where
  uniq : ∀ {h h' n}, hf s h = some n → hf s h' = some n → h = h'
  live : ∀ {h n}, hf s h = some n → Live s n

/-- After returning to it, a frame holds nothing. -/
theorem topH_rest {U : User τ φ δ χ} {ud : δ} {f : φ} {s : OSt τ φ δ} (hr : OR U ud f s) {t : Nat} {x : Frame τ (OFrame φ)}
    {rest : List (Frame τ (OFrame φ))} (hst : s.stk t = x :: rest) (hx : ∀ n f, x ≠ .core (.spawnIn n f)) : topH rest = none := by
  have := ((stacking U (OR U ud f)).sound (fun _ h => h) hr).chain t
  rw [hst] at this
  cases rest with
  | nil => rfl
  | cons l rest =>
    have ha : Adj l x := this.1
    cases l with
    | core c => cases c <;> first | rfl | exact absurd rfl (ha.2.2.1 _) | exact absurd rfl (ha.2.2.2 _)
    | client g =>
      cases g <;> first | rfl | skip
      obtain ⟨f', rfl⟩ := ha.1 _ _ rfl
      exact absurd rfl (hx _ f')

theorem slotH_eq {d d' : OData δ} (h : d'.slot = d.slot) (o : Nat) : slotH d' o = slotH d o := by simp [slotH, h]

theorem slotH_put (d : OData δ) (o u : Nat) (x : TObj) (b : Bool) : slotH (d.put o x b) u = if u = o then x.native else slotH d u := by
  simp only [slotH, slot_put]; split <;> rfl

theorem slotH_ev (d : OData δ) (e : OEv) (u : Nat) : slotH (d.ev e) u = slotH d u := rfl

theorem slotH_some {d : OData δ} {o : Nat} {x : Slot} (h : d.slot o = some x) : slotH d o = x.obj.native := by simp [slotH, h]
theorem slotH_none {d : OData δ} {o : Nat} (h : d.slot o = none) : slotH d o = none := by simp [slotH, h]


/-- `join` and `detach` give the handle up when they return; nobody else takes it away. -/
theorem live_keep {U : User τ φ δ χ} {ud : δ} {f : φ} {s s' : OSt τ φ δ} (hr : OR U ud f s) {t n : Nat} {ch : Ch χ}
    (hs : step (client U) s (.th t ch) = some s') (hn : Live s n) (hk : topH (s.stk t) = some n → topH (s'.stk t) = none → False) : Live s' n := by
  have hthr : s'.term = true → Live s' n := by
    intro h; unfold Live; rw [step_halt_thr hs h]; exact hn
  have main : ∀ f rest, s.stk t = .core f :: rest → (f = .joinIn n ∨ f = .detachIn n) → Live s' n := by
    intro f rest hst hf
    have hrest := topH_rest hr hst (by rcases hf with rfl | rfl <;> simp)
    have hpop : s'.stk t = rest → Live s' n := fun h => (hk (by rw [hst]; rcases hf with rfl | rfl <;> rfl) (h ▸ hrest)).elim
    rcases step_cl hs with ⟨f', rest', d', a, hexc, hold, hstep, hdata, hact, -⟩ | ⟨f', rest', hexc, hold, hcs, hdata, hcore⟩ |
      ⟨e, hexc, hst', hterm, -⟩ | ⟨e, f', k, rest', hexc, hold, hf', -⟩ | ⟨e, f', rest', hexc, hold, hf', hst', -⟩ |
      ⟨e, g0, g', rest', hexc, hold, -⟩ | ⟨e, g0, rest', hexc, hold, -⟩ | ⟨hold, -⟩
    · rw [hst] at hold; cases hold
    · rw [hst] at hold; cases hold
      rcases hcs with ⟨new, h, hst', hexc', hrv⟩ | ⟨v, h, hst', hrv, hexc'⟩ | ⟨e, rfl, hst', hexc'⟩ | ⟨hub, hst', hexc'⟩
      · rcases hf with rfl | rfl <;> cases h
      · exact hpop hst'
      · exact hpop hst'
      · unfold Live
        have hu0 : s.ub = false := by
          simp only [step] at hs; split at hs; contradiction; rename_i h; simp at h; exact h.1
        rcases stepCore_moved _ s s' t f rest ch (fun _ => 0) (WF.reach hr) hst hcore with ⟨new, -, h, -⟩ | ⟨-, h, -⟩ | ⟨-, -, h⟩
        · rw [hub, hu0] at h; contradiction
        · rw [hub, hu0] at h; contradiction
        · rw [h]; exact hn
    · exact hthr hterm
    · rw [hst] at hold; cases hold; rcases hf with rfl | rfl <;> simp [CF.running] at hf'
    · rw [hst] at hold; cases hold; rcases hf with rfl | rfl <;> simp [CF.unwinds] at hf'
    · rw [hst] at hold; cases hold
    · rw [hst] at hold; cases hold
    · rw [hst] at hold; cases hold
  refine Classical.byContradiction fun hl => hl (live_step hs hn (fun rest h => hl (main _ rest h (.inl rfl))) (fun rest h => hl (main _ rest h (.inr rfl))))

/-- The top of the stepping thread after a step that is not one of class thread. -/
theorem topH_step {U : User τ φ δ χ} {ud : δ} {f : φ} {s s' : OSt τ φ δ} (hr : OR U ud f s) {t : Nat} {ch : Ch χ}
    (hs : step (client U) s (.th t ch) = some s') :
    topH (s'.stk t) = none ∨ s'.stk t = s.stk t ∨
    (∃ f rest, ∃ a : Act τ (OFrame φ), (s.thr t).exc = none ∧ s.stk t = .client f :: rest ∧ OS t s.data f (s.thr t).rv s'.data a ∧ ActTo s s' t rest a) ∨
    (s'.data = s.data ∧ ∃ o n f rest, s.stk t = .core (.spawnIn n f) :: .client (.mkReg o n) :: rest ∧ s'.stk t = .client (.mkReg o n) :: rest ∧
      (s.thr n).status = .free ∧ Live s' n) := by
  have usr : ∀ {g : OFrame φ} {l : List (Frame τ (OFrame φ))}, isUsr g → topH (.client g :: l) = none := by
    rintro g l ⟨x, rfl⟩; rfl
  have cl := codes hr
  rcases step_cl hs with ⟨f, rest, d', a, hexc, hold, hstep, hdata, hact, -⟩ | ⟨f, rest, hexc, hold, hcs, hdata, hcore⟩ |
    ⟨e, hexc, hst, -, -, hdata, -⟩ |
    ⟨e, f, k, rest, hexc, hold, hf, hst, hexc', hdata, -⟩ | ⟨e, f, rest, hexc, hold, hf, hst, -, hdata, -⟩ |
    ⟨e, g0, g', rest, hexc, hold, hg', hst, hexc', hdata, -⟩ | ⟨e, g0, rest, hexc, hold, hg', hst, -, hdata, -⟩ | ⟨hold, hst, hexc', hdata, -⟩
  · rcases client_os hstep with ⟨g', oa, rfl, -, -, rfl⟩ | h
    · have hrest := topH_rest hr hold (by simp)
      cases oa with
      | core a k =>
        simp only [liftAct] at hact
        cases ha : mapApi a <;> simp only [ha, ActTo] at hact
        · exact .inr (.inl hact.1)
        · left
          rw [hact.1]
          cases a <;> simp only [mapApi] at ha <;> cases ha <;> rfl
      | obj a k =>
        simp only [liftAct, ActTo] at hact
        left; rw [hact.1]
        cases a <;> rfl
      | push g1 k => simp only [liftAct, ActTo] at hact; rw [hact.1]; exact .inl rfl
      | goto g1 => simp only [liftAct, ActTo] at hact; rw [hact.1]; exact .inl rfl
      | ret v => simp only [liftAct, ActTo] at hact; rw [hact.1]; exact .inl hrest
      | throw v => simp only [liftAct, ActTo] at hact; rw [hact.1]; exact .inl hrest
      | terminate => simp only [liftAct, ActTo] at hact; exact .inr (.inl hact.1)
    · subst hdata
      exact .inr (.inr (.inl ⟨f, rest, a, hexc, hold, h, hact⟩))
  · by_cases hsp : ∃ n g, f = .spawnIn n g
    · obtain ⟨n, g, rfl⟩ := hsp
      have hch := ((stacking U (OR U ud _)).sound (fun _ h => h) hr).chain t
      rw [hold] at hch
      have hne : rest ≠ [] := by
        rintro rfl
        have := bot_reach hr t
        rw [hold] at this
        exact this
      obtain ⟨l, rest, rfl⟩ := List.exists_cons_of_ne_nil hne
      obtain ⟨o, rfl⟩ := (show Adj l _ from hch.1).2.1 n g rfl
      have hrun : (s.thr t).status = .running := by
        simp only [step] at hs
        split at hs
        · contradiction
        split at hs
        · contradiction
        · rename_i h; simpa using h
      simp only [stepCore] at hcore
      split at hcore
      · rename_i hfr
        have hne' : t ≠ n := by rintro rfl; rw [hrun] at hfr; contradiction
        obtain rfl := Option.some.inj hcore
        refine .inr (.inr (.inr ⟨rfl, o, n, g, rest, hold, ?_, hfr, ?_⟩))
        · simp [St.stk, St.ret]
        · simp [Live, St.ret, upd_ne _ _ (Ne.symm hne')]
      · contradiction
    · have hrest := topH_rest hr hold (by intro n g h; cases h; exact hsp ⟨n, g, rfl⟩)
      rcases hcs with ⟨new, h, hst, hexc', hrv⟩ | ⟨v, h, hst, hrv, hexc'⟩ | ⟨e, rfl, hst, hexc'⟩ | ⟨hub, hst, hexc'⟩
      · left
        rw [hst]
        have hc := cl.code t f (by rw [hold]; simp)
        cases h
        case initCfg => exact usr (hc _ rfl 0)
        case sdLog2 h => exact usr (cl.cb _ h)
        case sdNotifyEnd h => exact usr (cl.cb _ h)
        case sdParkEnd h => exact usr (cl.cb _ h)
        all_goals rfl
      · left; rw [hst]; exact hrest
      · left; rw [hst]; exact hrest
      · exact .inr (.inl hst)
  · exact .inr (.inl hst)
  · rw [hst]; exact .inl rfl
  · left; rw [hst]; exact topH_rest hr hold (by rintro n g h; cases h; simp [CF.unwinds] at hf)
  · rw [hst]
    left
    cases g0 <;> simp only [client, oThrow, Option.map_eq_some_iff, reduceCtorEq] at hg'
    obtain ⟨y, -, rfl⟩ := hg'
    rfl
  · left; rw [hst]; exact topH_rest hr hold (by simp)
  · rw [hst]; exact .inl rfl

theorem topH_oth {U : User τ φ δ χ} {ud : δ} {f : φ} {s s' : OSt τ φ δ} (hr : OR U ud f s) {t u : Nat} {ch : Ch χ}
    (hs : step (client U) s (.th t ch) = some s') (hu : u ≠ t) {n : Nat} (h : topH (s'.stk u) = some n) : topH (s.stk u) = some n := by
  rcases hr.stk_oth hu hs with ⟨h', -⟩ | ⟨f, rest, h', -, -, h2, -⟩
  · rw [← h']; exact h
  · obtain ⟨g, rfl⟩ := (codes hr).code t (.spawnIn u f) (by rw [h']; simp) 0
    rw [h2] at h; cases h

def sw (p q h : Nat ⊕ Nat) : Nat ⊕ Nat := if h = p then q else if h = q then p else h

theorem sw_inj {p q h h' : Nat ⊕ Nat} (e : sw p q h = sw p q h') : h = h' := by
  unfold sw at e; grind

theorem sw_self (p h : Nat ⊕ Nat) : sw p p h = h := by unfold sw; grind

theorem sw_oth {p q h : Nat ⊕ Nat} (hp : h ≠ p) (hq : h ≠ q) : sw p q h = h := by simp [sw, hp, hq]

/-- A step of class thread exchanges at most two places, and may drop handles. -/
theorem os_own {U : User τ φ δ χ} {ud : δ} {f0 : φ} {s s' : OSt τ φ δ} (hr : OR U ud f0 s) (hp : s.term = false) {t : Nat} {ch : Ch χ}
    (hs : step (client U) s (.th t ch) = some s') {f : OFrame φ}
    {rest : List (Frame τ (OFrame φ))} {a : Act τ (OFrame φ)} (hold : s.stk t = .client f :: rest)
    (hos : OS t s.data f (s.thr t).rv s'.data a) (hact : ActTo s s' t rest a) :
    ∃ p q, ∀ h n, hf s' h = some n → hf s (sw p q h) = some n := by
  have hrest := topH_rest hr hold (by simp)
  have hpf := pf_reach hr (t := t) (g := f) (by rw [hold]; simp) hp
  have mk : ∀ p q, (∀ u, u ≠ t → .inr u ≠ p ∧ .inr u ≠ q) → (∀ n, topH (s'.stk t) = some n → hf s (sw p q (.inr t)) = some n) →
      (∀ o n, slotH s'.data o = some n → hf s (sw p q (.inl o)) = some n) → ∃ p q, ∀ h n, hf s' h = some n → hf s (sw p q h) = some n := by
    intro p q h1 h2 h3
    refine ⟨p, q, ?_⟩
    intro h n hh
    cases h with
    | inl o => exact h3 o n hh
    | inr u =>
      by_cases hu : u = t
      · subst hu; exact h2 n hh
      · rw [sw_oth (h1 u hu).1 (h1 u hu).2]; exact topH_oth hr hs hu hh
  have same : topH (s'.stk t) = none ∨ s'.stk t = s.stk t → (∀ o n, slotH s'.data o = some n → slotH s.data o = some n) →
      ∃ p q, ∀ h n, hf s' h = some n → hf s (sw p q h) = some n := by
    intro h1 h2
    refine mk (.inr t) (.inr t) (by intro u hu; simp [hu]) ?_ ?_
    · intro n hn
      rw [sw_self]
      rcases h1 with h1 | h1
      · rw [h1] at hn; contradiction
      · show topH _ = _
        rw [← h1]; exact hn
    · intro o n hn; rw [sw_self]; exact h2 o n hn
  have slots : ∀ o o', topH (s'.stk t) = none → (∀ u n, slotH s'.data u = some n → slotH s.data (if u = o then o' else if u = o' then o else u) = some n) →
      ∃ p q, ∀ h n, hf s' h = some n → hf s (sw p q h) = some n := by
    intro o o' h1 h2
    refine mk (.inl o) (.inl o') (by intro u _; simp) ?_ ?_
    · intro n hn; rw [h1] at hn; contradiction
    · intro u n hn
      have := h2 u n hn
      unfold sw
      simp only [Sum.inl.injEq]
      split
      · rw [if_pos ‹_›] at this; exact this
      · rw [if_neg ‹_›] at this
        split
        · rw [if_pos ‹_›] at this; exact this
        · rw [if_neg ‹_›] at this; exact this
  have moved : ∀ o, (∀ n, topH (s'.stk t) = some n → slotH s.data o = some n) → (∀ n, slotH s'.data o = some n → topH (s.stk t) = some n) →
      (∀ u, u ≠ o → slotH s'.data u = slotH s.data u) → ∃ p q, ∀ h n, hf s' h = some n → hf s (sw p q h) = some n := by
    intro o h1 h2 h3
    refine mk (.inl o) (.inr t) (by intro u hu; simp [hu]) ?_ ?_
    · intro n hn; simp only [sw]; simp; exact h1 n hn
    · intro u n hn
      by_cases hu : u = o
      · subst hu; simp only [sw]; simp; exact h2 n hn
      · rw [sw_oth (by simp [hu]) (by simp)]; show slotH _ _ = _; rw [← h3 u hu]; exact hn
  generalize hd : s'.data = d' at *
  generalize hrv : (s.thr t).rv = rv at hos
  cases hos <;> simp only [ActTo] at hact
  case halt => exact same (.inr hact.1) (by intro o n h; exact h)
  case dtBad => exact same (.inr hact.1) (by intro o n h; rw [slotH_ev] at h; exact h)
  case mvIn o o' x h h' =>
    refine slots o o' (by rw [hact.1]; exact hrest) ?_
    intro u n hn
    rw [slotH_put] at hn
    split at hn
    · contradiction
    · rw [slotH_put] at hn
      split at hn
      · rw [if_pos ‹_›, slotH_some h']; exact hn
      · rw [if_neg ‹_›, if_neg ‹_›]; exact hn
  case swIn o o' x x' h h' =>
    refine slots o o' (by rw [hact.1]; exact hrest) ?_
    intro u n hn
    rw [OData.exch, slotH_put] at hn
    split at hn
    · split
      · subst_vars; rw [h] at h'; cases h'; rw [slotH_some h]; exact hn
      · rw [slotH_some h]; exact hn
    · rw [slotH_put] at hn
      split at hn
      · rw [if_pos ‹_›, slotH_some h']; exact hn
      · rw [if_neg ‹_›, if_neg ‹_›]; exact hn
  case asSwap o o' x x' h h' =>
    refine slots o o' (by rw [hact.1]; exact hrest) ?_
    intro u n hn
    rw [slotH_ev, OData.exch, slotH_put] at hn
    split at hn
    · split
      · subst_vars; rw [h] at h'; cases h'; rw [slotH_some h]; exact hn
      · rw [slotH_some h]; exact hn
    · rw [slotH_put] at hn
      split at hn
      · rw [if_pos ‹_›, slotH_some h']; exact hn
      · rw [if_neg ‹_›, if_neg ‹_›]; exact hn
  case mkReg o n =>
    refine moved o ?_ ?_ ?_
    · intro m hm; rw [hact.1] at hm; cases hm
    · intro m hm; rw [slotH_put, if_pos rfl] at hm; cases hm; rw [hold]; rfl
    · intro u hu; rw [slotH_put, if_neg hu]
  case jnStd K x n h hn ht =>
    refine moved K.obj ?_ ?_ ?_
    · intro m hm; rw [hact.1] at hm; cases hm; rw [slotH_some h]; exact hn
    · intro m hm; rw [slotH_ev, slotH_put, if_pos rfl] at hm; cases hm
    · intro u hu; rw [slotH_ev, slotH_put, if_neg hu]
  case deIn o n x h hn =>
    refine moved o ?_ ?_ ?_
    · intro m hm; rw [hact.1] at hm; cases hm; rw [slotH_some h]; exact hn
    · intro m hm; rw [slotH_put, if_pos rfl] at hm; cases hm
    · intro u hu; rw [slotH_put, if_neg hu]
  case jnBad K x e h =>
    refine same (.inl ?_) (by intro o n h; exact h)
    rw [hact.1]; cases K <;> rfl
  case jnEnd K n =>
    refine same (.inl ?_) (by intro o n h; rw [slotH_ev] at h; exact h)
    rw [hact.1]; cases K <;> rfl
  case mkId o n id =>
    refine same (.inl (by rw [hact.1]; exact hrest)) ?_
    intro u m hm
    rw [slotH_ev, slotH_put] at hm
    split at hm
    · subst_vars; rw [slotH_some hpf]; exact hm
    · exact hm
  case dtStd o x h hx =>
    refine same (.inl (by rw [hact.1]; exact hrest)) ?_
    intro u m hm
    rw [slotH_ev, slotH, slot_set] at hm
    split at hm
    · contradiction
    · exact hm
  all_goals
    refine same (.inl (by rw [hact.1]; first | exact hrest | rfl)) ?_
    intro u m hm
    try simp only [slotH_ev, slotH_put] at hm
    first
      | exact hm
      | (split at hm
         · first
           | (cases hm; done)
           | (subst_vars; rw [slotH_some ‹_›]; exact hm)
           | (rename_i hu; subst hu; rw [slotH_some (by assumption)]; exact hm)
         · first
           | exact hm
           | (split at hm
              · rename_i hu; subst hu; rw [slotH_some (by assumption)]; exact hm
              · exact hm))

theorem own_reach {U : User τ φ δ χ} {ud : δ} {f : φ} {s : OSt τ φ δ} (hr : OR U ud f s) : Own s := by
  refine Reach.induct Own ?_ ?_ hr
  · have : ∀ h n, hf (Core.init { ud := ud } (.usr f) : OSt τ φ δ) h ≠ some n := by
      intro h n
      cases h with
      | inl o => simp [hf, slotH, Core.init]
      | inr t =>
        by_cases ht : t = 0
        · subst ht; simp [hf, Core.init, St.stk, topH]
        · simp [hf, Core.init, St.stk, upd_ne _ _ ht, topH]
    exact ⟨fun h => absurd h (this _ _), fun h => absurd h (this _ _)⟩
  · intro s l s' hr q hs
    have hp : s.term = false := by
      cases l <;> simp only [step] at hs <;> (split at hs; contradiction; rename_i h; simp at h; exact h.2)
    cases l with
    | tick n => rw [step_tick _ s s' n hs]; exact ⟨q.uniq, q.live⟩
    | th t ch =>
      have gen : ∀ p q', (∀ h n, hf s' h = some n → hf s (sw p q' h) = some n) →
          (∀ n h, hf s' h = some n → Live s n → Live s' n) → Own s' := by
        intro p q' h1 h2
        exact ⟨fun {h h' n} a b => sw_inj (q.uniq (h1 h n a) (h1 h' n b)), fun {h n} a => h2 n h a (q.live (h1 h n a))⟩
      have os : ∀ f rest, ∀ a : Act τ (OFrame φ), s.stk t = .client f :: rest → OS t s.data f (s.thr t).rv s'.data a → ActTo s s' t rest a → Own s' := by
        intro f rest a hold hos hact
        obtain ⟨p, q', h⟩ := os_own hr hp hs hold hos hact
        refine gen p q' h ?_
        intro n h _ hl
        exact live_step hs hl (by simp [hold]) (by simp [hold])
      rcases data_step hs with ⟨hd, -⟩ | ⟨f, rest, a, hexc, hold, hos, hact⟩
      · have plain : topH (s'.stk t) = none ∨ s'.stk t = s.stk t → Own s' := by
          intro ht
          have hsub : ∀ h n, hf s' h = some n → hf s h = some n := by
            intro h n hh
            cases h with
            | inl o => rw [← hh]; exact (slotH_eq hd o).symm
            | inr u =>
              by_cases hu : u = t
              · subst hu
                rcases ht with ht | ht
                · exact absurd (ht.symm.trans hh) (by simp)
                · show topH _ = _; rw [← ht]; exact hh
              · exact topH_oth hr hs hu hh
          refine gen (.inl 0) (.inl 0) (fun h n hh => by rw [sw_self]; exact hsub h n hh) ?_
          intro n h hh hl
          refine live_keep hr hs hl ?_
          intro e1 e2
          have : h = .inr t := q.uniq (hsub h n hh) (show hf s (.inr t) = some n from e1)
          subst this
          exact absurd (e2.symm.trans hh) (by simp)
        rcases topH_step hr hs with h | h | ⟨f, rest, a, hexc, hold, hos, hact⟩ | ⟨hd', o, n, g, rest, hold, hst, hfr, hlv⟩
        · exact plain (.inl h)
        · exact plain (.inr h)
        · exact os f rest a hold hos hact
        · have hno : ∀ h, hf s h ≠ some n := fun h e => (q.live e).1 hfr
          have hsub : ∀ h m, hf s' h = some m → hf s h = some m ∨ (h = .inr t ∧ m = n) := by
            intro h m hh
            cases h with
            | inl u => left; rw [← hh]; exact (slotH_eq hd u).symm
            | inr u =>
              by_cases hu : u = t
              · subst hu
                right
                have : topH (s'.stk u) = some m := hh
                rw [hst] at this
                cases this
                exact ⟨rfl, rfl⟩
              · exact .inl (topH_oth hr hs hu hh)
          refine ⟨?_, ?_⟩
          · intro h h' m e1 e2
            rcases hsub h m e1 with a | ⟨rfl, rfl⟩ <;> rcases hsub h' m e2 with b | ⟨rfl, b⟩
            · exact q.uniq a b
            · subst b; exact absurd a (hno _)
            · exact absurd b (hno _)
            · rfl
          · intro h m e
            rcases hsub h m e with a | ⟨rfl, rfl⟩
            · exact live_step hs (q.live a) (by simp [hold]) (by simp [hold])
            · exact hlv
      · exact os f rest a hold hos hact

end
end Obj
end Itc
