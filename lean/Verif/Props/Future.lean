import Verif.Sync.Set
import Verif.Sync.Act
import Verif.Sync.Demo
import Verif.Props.Calls

/-!
# Futures and promises: C29, C30, C31, C36

For every application code `A` (all numbers of threads, promises, setters, waiters) and every schedule.
-/
namespace Itc
open Core Sync
section
variable {α φ δ χ : Type} {A : App α φ δ χ} {ad : δ} {i0 : φ} {s s' s0 : SSt α φ δ}

/-! ## Specification vocabulary -/

/-- The state holds exactly the result `r`: future_state.hpp status, value and exception. -/
def Holds (x : FSt α) : Res → Prop
  | .val w => x.status = .ready ∧ x.value = (if x.isVoid then none else some w) ∧ x.exn = none
  | .exn e => x.status = .error ∧ x.value = none ∧ x.exn = some e

/-- Same outcome: status, value, exception. -/
def SameOutcome (x y : FSt α) : Prop := y.status = x.status ∧ y.value = x.value ∧ y.exn = x.exn

/-- Number of times the log shows state `p` made ready. -/
def satCount (log : List SEv) (p : Nat) : Nat := log.countP fun e => match e with
  | .sat _ q _ => q == p
  | _ => false

theorem satCount_eq (log : List SEv) (p : Nat) : satCount log p = (sats log p).length := by
  induction log with
  | nil => rfl
  | cons e log ih =>
    have ih : List.countP _ log = _ := ih
    simp only [satCount, sats, List.countP_cons, List.filterMap_cons]
    rw [ih]
    cases e <;> simp only [SEv.satOf] <;> try rfl
    rename_i q r
    by_cases h : q = p <;> simp [h, sats]

/-! ## C29 -/

/-- Steps leave a ready state alone. -/
theorem frozen (hr : SR A ad i0 s) {l : Lbl χ} (hs : step (client A) s l = some s') {p : Nat} (hp : s.data.sd.ready p = true) :
    SameAt s.data.sd s'.data.sd p ∧ sats s'.data.sd.slog p = sats s.data.sd.slog p := by
  rcases step_sd hs with h | ⟨t, ch, f, rest, a, -, he, hst, hS⟩
  · rw [h]; exact ⟨SameAt.of_eq rfl, rfl⟩
  · have h2 := (top2_ok hr).2 t f rest hst he
    have hp' : (s.data.sd.st p).status ≠ .notSet := by simpa [SData.ready] using hp
    by_cases hsp : special f
    · generalize s'.data.sd = d' at hS ⊢
      cases hS <;> first | exact False.elim hsp | skip
      case svBad q r h => exact ⟨SameAt.of_eq rfl, rfl⟩
      case svVal q w h =>
        have hq : p ≠ q := by rintro rfl; rw [hp] at h; cases h
        exact ⟨by constructor <;> simp [SData.setSt, set_ne _ _ hq], rfl⟩
      case svExn q w h =>
        have hq : p ≠ q := by rintro rfl; rw [hp] at h; cases h
        exact ⟨by constructor <;> simp [SData.setSt, set_ne _ _ hq], rfl⟩
      all_goals
        rename_i q w
        have hq : p ≠ q := by rintro rfl; exact hp' (h2.1 p _ rfl).1
        refine ⟨by constructor <;> simp [SData.ev, SData.setSt, set_ne _ _ hq], ?_⟩
        simp only [SData.ev]
        rw [sats_srSet, if_neg (fun h => hq h.symm)]; rfl
    · exact quiet (ty1_I hr) hS hsp p

/-- Once a shared state is ready, no step of anybody changes its status, value or exception. -/
theorem C29_frozen (hr : SR A ad i0 s) {ls : List (Lbl χ)} (hs : run (client A) s ls = some s') {p : Nat} (hp : (s.data.sd.st p).status ≠ .notSet) :
    SameOutcome (s.data.sd.st p) (s'.data.sd.st p) := by
  induction ls generalizing s with
  | nil => obtain rfl := Option.some.inj hs; exact ⟨rfl, rfl, rfl⟩
  | cons l ls ih =>
    simp only [run] at hs
    split at hs
    · contradiction
    rename_i s1 h1
    have h2 := hs
    obtain ⟨hf, -⟩ := frozen hr h1 (p := p) (by simpa [SData.ready] using hp)
    obtain ⟨i1, i2, i3⟩ := ih (hr.step h1) h2 (by rw [hf.status]; exact hp)
    exact ⟨i1.trans hf.status, i2.trans hf.value, i3.trans hf.exn⟩

/-- A shared state is made ready at most once, and it is ready iff that happened. -/
theorem C29_once (hr : SR A ad i0 s) (p : Nat) :
    satCount s.data.sd.slog p ≤ 1 ∧ ((s.data.sd.st p).status ≠ .notSet ↔ satCount s.data.sd.slog p = 1) ∧
    (∀ t r, .sat t p r ∈ s.data.sd.slog → Holds (s.data.sd.st p) r) := by
  have h := (top2_ok hr).1.out p
  rw [satCount_eq]
  have hmem : ∀ t r, SEv.sat t p r ∈ s.data.sd.slog → r ∈ sats s.data.sd.slog p := by
    intro t r hm
    exact List.mem_filterMap.2 ⟨_, hm, by simp [SEv.satOf]⟩
  simp only [outc] at h
  cases hst : (s.data.sd.st p).status <;> simp only [hst] at h
  · refine ⟨by simp [h], by simp [h], fun t r hm => ?_⟩
    have := hmem t r hm
    rw [h] at this; simp at this
  · obtain ⟨w, h1, h2, h3⟩ := h
    refine ⟨by simp [h1], by simp [h1], fun t r hm => ?_⟩
    have := hmem t r hm
    rw [h1] at this; simp at this; subst this
    exact ⟨hst, h2, h3⟩
  · obtain ⟨w, h1, h2, h3⟩ := h
    refine ⟨by simp [h1], by simp [h1], fun t r hm => ?_⟩
    have := hmem t r hm
    rw [h1] at this; simp at this; subst this
    exact ⟨hst, h2, h3⟩

/-- Phases of a call of set_value / set_exception with result `r` on `p`; `L`: it has made the state ready. -/
def SetPh (p : Nat) (r : Res) (L : Prop) : SFrame α φ → Prop
  | .svIn q r' => q = p ∧ r' = r
  | .svChk q r' => q = p ∧ r' = r
  | .srSet q r' => q = p ∧ r' = r
  | .naIn K => K.isFut p ∧ L
  | .nLoop K _ => K.isFut p ∧ L
  | .nCall K _ _ _ => K.isFut p ∧ L
  | .nAfter K _ _ _ => K.isFut p ∧ L
  | .srUnl q _ => q = p ∧ L
  | .srLoop q _ _ => q = p ∧ L
  | .laIn K _ => K.isSr p ∧ L
  | .laRet K _ => K.isSr p ∧ L
  | .laInl K _ => K.isSr p ∧ L
  | .srDtor q _ => q = p ∧ L
  | _ => False

theorem SetPh.mono {p : Nat} {r : Res} {L L' : Prop} {f : SFrame α φ} (h : SetPh p r L f) (hL : L → L') : SetPh p r L' f := by
  cases f <;> first | exact h | exact ⟨h.1, hL h.2⟩

theorem sats_ready (hr : SR A ad i0 s) {p : Nat} {r : Res} (h : sats s.data.sd.slog p = [r]) : s.data.sd.ready p = true ∧ Holds (s.data.sd.st p) r := by
  have ho := (top2_ok hr).1.out p
  simp only [outc] at ho
  cases hst : (s.data.sd.st p).status <;> simp only [hst] at ho
  · rw [h] at ho; simp at ho
  · obtain ⟨w, h1, h2, h3⟩ := ho
    rw [h] at h1; simp at h1; subst h1
    exact ⟨by simp [SData.ready, hst], hst, h2, h3⟩
  · obtain ⟨w, h1, h2, h3⟩ := ho
    rw [h] at h1; simp at h1; subst h1
    exact ⟨by simp [SData.ready, hst], hst, h2, h3⟩

theorem sats_notReady (hr : SR A ad i0 s) {p : Nat} (h : s.data.sd.ready p = false) : sats s.data.sd.slog p = [] := by
  have ho := (top2_ok hr).1.out p
  have hst : (s.data.sd.st p).status = .notSet := by simpa [SData.ready] using h
  simpa only [outc, hst] using ho

theorem SetPh.frag (hr : SR A ad i0 s0) {t n p : Nat} {r : Res} {rest : List (Fr α φ)} (hst : s0.stk t = .client (.svIn p r) :: rest)
    (hf : Frag (client A) t rest s0 n s) : ∃ pre f, s.stk t = pre ++ .client f :: rest ∧ (s.term = true ∨
      (s0.data.sd.ready p = true → s.data.sd.ready p = true) ∧ p < s.data.sd.nst ∧
      SetPh p r (s0.data.sd.ready p = false ∧ sats s.data.sd.slog p = [r]) f) := by
  refine SFrag.ind (fun f s => (s0.data.sd.ready p = true → s.data.sd.ready p = true) ∧ p < s.data.sd.nst ∧
      SetPh p r (s0.data.sd.ready p = false ∧ sats s.data.sd.slog p = [r]) f) hr hst ⟨id, ty1_top hr hst, rfl, rfl⟩
    (fun g s h => h.2.2) ?_ ?_ ?_ hf
  · intro s1 s2 f g d' a ch hr1 hst1 he hp hS hc hd hs hck hst2
    obtain ⟨h1, h2, h3⟩ := hp
    have hx := step_ext hs
    have late : s1.data.sd.ready p = true → sats s2.data.sd.slog p = sats s1.data.sd.slog p := fun h => (frozen hr1 hs h).2
    refine ⟨fun h => hx.ready h2 (h1 h), Nat.lt_of_lt_of_le h2 hx.nst, ?_⟩
    have L : (s0.data.sd.ready p = false ∧ sats s1.data.sd.slog p = [r]) → (s0.data.sd.ready p = false ∧ sats s2.data.sd.slog p = [r]) := by
      rintro ⟨hl, hr'⟩
      exact ⟨hl, (late (sats_ready hr1 hr').1).trans hr'⟩
    cases hS
    case laRet K c =>
      rcases laNext_cont hc with ⟨p, dn, l, rfl, dn', rfl⟩ | ⟨rfl, -, rfl⟩ | ⟨rfl, -, rfl⟩
      · exact ⟨h3.1, L h3.2⟩
      · exact h3.1.elim
      · exact h3.1.elim
    case laEnd K c =>
      rcases laNext_cont hc with ⟨p, dn, l, rfl, dn', rfl⟩ | ⟨rfl, -, rfl⟩ | ⟨rfl, -, rfl⟩
      · exact ⟨h3.1, L h3.2⟩
      · exact h3.1.elim
      · exact h3.1.elim
    case srVal q w =>
      have hc := Option.some.inj hc; subst hc
      obtain ⟨rfl, rfl⟩ := h3
      have hset := ((top2_ok hr1).2 t _ _ hst1 he).1 _ _ rfl
      have hnr : s1.data.sd.ready q = false := by simp [SData.ready, hset.1]
      refine ⟨rfl, ?_, ?_⟩
      · by_contra hc
        rw [h1 (by simpa using hc)] at hnr; cases hnr
      · rw [hd]; simp only [SData.ev, SData.setSt]
        rw [sats_srSet, if_pos rfl, sats_notReady hr1 hnr]
    case srExn q w =>
      have hc := Option.some.inj hc; subst hc
      obtain ⟨rfl, rfl⟩ := h3
      have hset := ((top2_ok hr1).2 t _ _ hst1 he).1 _ _ rfl
      have hnr : s1.data.sd.ready q = false := by simp [SData.ready, hset.1]
      refine ⟨rfl, ?_, ?_⟩
      · by_contra hc
        rw [h1 (by simpa using hc)] at hnr; cases hnr
      · rw [hd]; simp only [SData.ev, SData.setSt]
        rw [sats_srSet, if_pos rfl, sats_notReady hr1 hnr]
    all_goals first
      | exact False.elim h3
      | exact False.elim h3.1
      | (cases hc; done)
      | (have hc := Option.some.inj hc; subst hc; first | exact h3 | exact ⟨h3.1, L h3.2⟩)
  · intro s1 s2 f g e hr1 hst1 he hp hnt hf hd
    exfalso
    obtain ⟨-, -, h3⟩ := hp
    cases f <;> first | exact h3 | exact hnt trivial
  · intro s1 s2 f l hr1 hp hs _ _ _
    obtain ⟨h1, h2, h3⟩ := hp
    have hx := step_ext hs
    refine ⟨fun h => hx.ready h2 (h1 h), Nat.lt_of_lt_of_le h2 hx.nst, h3.mono ?_⟩
    rintro ⟨hl, hr'⟩
    exact ⟨hl, (frozen hr1 hs (sats_ready hr1 hr').1).2.trans hr'⟩

/-- A setter that returns normally found the state not ready, and the state holds its result, the only one ever.  A setter
    that throws, throws `promise_already_satisfied`, the state was ready, and the step that throws changes nothing but the guard
    (the only other step of the call takes the guard). -/
theorem C29_set (hr : SR A ad i0 s0) {t n p : Nat} {r : Res} {rest : List (Fr α φ)} (hst : s0.stk t = .client (.svIn p r) :: rest)
    (hf : Frag (client A) t rest s0 n s) {l : Lbl χ} (hs : step (client A) s l = some s') (hend : s'.stk t = rest) :
    ((s'.thr t).exc = none ∧ (s0.data.sd.st p).status = .notSet ∧ Holds (s'.data.sd.st p) r ∧ satCount s'.data.sd.slog p = 1) ∨
    ((s'.thr t).exc = some .promiseSatisfied ∧ (s.data.sd.st p).status ≠ .notSet ∧ s.stk t = .client (.svChk p r) :: rest ∧
      s'.data.sd.st = s.data.sd.st ∧ s'.data.sd.sem = s.data.sd.sem ∧ s'.data.sd.tok = s.data.sd.tok) := by
  obtain ⟨pre, f, hg, hph⟩ := SetPh.frag hr hst hf
  have hr1 := hf.reach hr
  obtain ⟨-, h2, h3⟩ := hph.resolve_left (by rw [step_live hs]; simp)
  obtain ⟨rfl, hlast, ch, rfl⟩ := SFrag.last hr1 hg hs hend (by rintro g rfl; exact h3)
  have L : (s0.data.sd.ready p = false ∧ sats s.data.sd.slog p = [r]) →
      (s0.data.sd.st p).status = .notSet ∧ Holds (s'.data.sd.st p) r ∧ satCount s'.data.sd.slog p = 1 := by
    rintro ⟨hl, hr'⟩
    have h' := (frozen hr1 hs (sats_ready hr1 hr').1).2.trans hr'
    exact ⟨by simpa [SData.ready] using hl, (sats_ready (hr1.step hs) h').2, by rw [satCount_eq, h']; rfl⟩
  cases hlast with
  | ret v d' hexc hS hdata hexc' hrv =>
    generalize hret : (.ret v : Act (STask α) (SFrame α φ)) = a at hS
    refine .inl ⟨hexc', L ?_⟩
    cases hS <;> first
      | exact False.elim h3
      | (cases hret; done)
      | exact h3.2
      | exact False.elim h3.1
  | throw e d' hexc hS hdata hexc' =>
    generalize hret : (.throw e : Act (STask α) (SFrame α φ)) = a at hS
    cases hS
    case svBad q r' h =>
      cases hret
      obtain ⟨rfl, rfl⟩ := h3
      exact .inr ⟨hexc', by simpa [SData.ready] using h, hg, by rw [hdata]; rfl, by rw [hdata]; rfl, by rw [hdata]; rfl⟩
    case laRet K c => exact (laNext_throw hret.symm).elim
    case laEnd K c => exact (laNext_throw hret.symm).elim
    all_goals first
      | exact False.elim h3
      | (cases hret; done)
  | unwind e hexc hnt hf hdata hexc' =>
    exfalso
    cases f <;> first | exact h3 | exact hnt trivial

/-- set_value / set_exception of a promise object: it throws `no_state` if the promise was moved from, otherwise it is the call
    of `C29_set` on the promise's state (and nothing is changed by this step). -/
theorem C29_promise (_hr : SR A ad i0 s) {t q : Nat} {r : Res} {rest : List (Fr α φ)} (hst : s.stk t = .client (.poSet q r) :: rest)
    (hexc : (s.thr t).exc = none) {ch : Ch χ} (hs : step (client A) s (.th t ch) = some s') :
    s'.data = s.data ∧ ((s.data.sd.obj q = none ∧ s'.stk t = rest ∧ (s'.thr t).exc = some .noState) ∨
      ∃ p, s.data.sd.obj q = some p ∧ s'.stk t = .client (.svIn p r) :: rest ∧ (s'.thr t).exc = none) := by
  rcases step_cl hs with ⟨f, rest', d', a, hexc, hold, hstep, hdata, hact, -⟩ | ⟨f, rest, hexc, hold, hcs, hdata, -⟩ | ⟨e, he, -⟩ |
    ⟨e, f, k, rest, he, -⟩ | ⟨e, f, rest, he, -⟩ | ⟨e, g, g', rest, he, -⟩ | ⟨e, g, rest, he, -⟩ | ⟨hold, -⟩
  · rw [hst] at hold
    cases hold
    cases client_cs hstep with
    | sync f sd a hS =>
      cases hS <;> simp only [ActTo] at hact
      · exact ⟨hdata, .inl ⟨‹_›, hact.1, hact.2⟩⟩
      · exact ⟨hdata, .inr ⟨_, ‹_›, hact.1, hact.2.1⟩⟩
  · rw [hst] at hold; cases hold
  all_goals first
    | (rw [hexc] at he; cases he; done)
    | (rw [hst] at hold; cases hold)

/-! ## C36 -/

/-- Number of successful get_future calls of the promise with state `p`. -/
def gotCount (log : List SEv) (p : Nat) : Nat := log.countP fun e => match e with
  | .gotFut _ q => q == p
  | _ => false

/-- `retrieved` says whether a get_future succeeded; at most one did. -/
def GotI (d : SData α) : Prop :=
  ∀ p, p < d.nst → (d.st p).owner = .usr → gotCount d.slog p = if (d.st p).retrieved then 1 else 0

def GotI0 (d : SData α) : Prop := ∀ p, d.nst ≤ p → gotCount d.slog p = 0

theorem got_same {d d' : SData α} (h : GotI d ∧ GotI0 d) (h1 : d'.nst = d.nst) (h2 : d'.st = d.st) (h3 : ∀ p, gotCount d'.slog p = gotCount d.slog p)
     : GotI d' ∧ GotI0 d' := by
  simp only [GotI, GotI0, h1, h2, h3]; exact h

theorem got_st {d d' : SData α} {q : Nat} {x : FSt α} (h : GotI d ∧ GotI0 d) (h1 : d'.nst = d.nst) (h2 : d'.st = Sync.set d.st q x) (h4 : x.owner = (d.st q).owner)
    (h5 : x.retrieved = (d.st q).retrieved) (h3 : ∀ p, gotCount d'.slog p = gotCount d.slog p)  : GotI d' ∧ GotI0 d' := by
  refine ⟨fun p => ?_, fun p => ?_⟩
  · by_cases hq : p = q
    · subst hq; simp only [h1, h2, h3, set_same, h4, h5]; exact h.1 p
    · simp only [h1, h2, h3, set_ne _ _ hq]; exact h.1 p
  · simp only [h1, h3]; exact h.2 p

theorem got_mk {d d' : SData α} {x : FSt α} (h : GotI d ∧ GotI0 d) (h1 : d'.nst = d.nst + 1) (h2 : d'.st = Sync.set d.st d.nst x)
    (h5 : x.owner = .usr → x.retrieved = false) (h3 : ∀ p, gotCount d'.slog p = gotCount d.slog p)  : GotI d' ∧ GotI0 d' := by
  refine ⟨fun p => ?_, fun p hp => ?_⟩
  · by_cases hq : p = d.nst
    · subst hq; simp only [h2, h3, set_same]
      intro _ ho
      simp [h5 ho, h.2 _ (Nat.le_refl _)]
    · simp only [h1, h2, h3, set_ne _ _ hq]
      intro hp; exact h.1 p (by omega)
  · rw [h3]; exact h.2 p (by omega)

theorem got_addW {d : SData α} {t : Nat} {w : SemId} {i : Nat} (h : GotI d ∧ GotI0 d) :
    GotI (d.addWaiter t w i).1 ∧ GotI0 (d.addWaiter t w i).1 := by
  unfold SData.addWaiter
  split
  · exact h
  · exact got_same h rfl rfl (fun p => rfl)

theorem got_rel {d : SData α} {L : Option Lk} (h : GotI d ∧ GotI0 d) : GotI (d.relLk L) ∧ GotI0 (d.relLk L) := by
  cases L with
  | none => exact h
  | some l => exact got_same h rfl rfl (fun p => rfl)

theorem got_step {run destroy : α → φ} {v : View} {d d' : SData α} {rv : Val} {f : SFrame α φ} {a : Act (STask α) (SFrame α φ)}
    (hi : T1I d) (hS : SS run destroy v d rv f d' a) (h : GotI d ∧ GotI0 d) : GotI d' ∧ GotI0 d' := by
  cases hS
  case poFut q p hq hr =>
    obtain ⟨hp, ho⟩ := hi.obj q p hq
    refine ⟨fun p' hp' ho' => ?_, fun p' hp' => ?_⟩
    · by_cases hpp : p' = p
      · subst hpp
        have h0 : List.countP _ d.slog = _ := h.1 p' hp ho
        simp only [SData.ev, SData.setSt, set_same, gotCount, List.countP_cons, beq_self_eq_true, if_true]
        rw [h0]; simp [hr]
      · have hne : (p == p') = false := by simp; exact fun h => hpp h.symm
        simp only [SData.ev, SData.setSt, set_ne _ _ hpp] at ho' hp' ⊢
        have h0 : List.countP _ d.slog = _ := h.1 p' hp' ho'
        simp only [gotCount, List.countP_cons, hne]
        rw [h0]; simp
    · have hne : (p == p') = false := by
        simp only [SData.ev, SData.setSt] at hp'
        simp; omega
      have h0 : List.countP _ d.slog = _ := h.2 p' hp'
      simp only [SData.ev, SData.setSt, gotCount, List.countP_cons, hne]
      rw [h0]; simp
  all_goals first
    | exact h
    | exact got_addW h
    | exact got_rel h
    | exact got_same h rfl rfl (fun p => rfl)
    | exact got_st h rfl rfl rfl rfl (fun p => rfl)
    | exact got_mk h rfl rfl (fun _ => rfl) (fun p => rfl)
    | exact got_mk h rfl rfl (by simp) (fun p => rfl)

theorem got_ok (hr : SR A ad i0 s) : GotI s.data.sd ∧ GotI0 s.data.sd := by
  refine Reach.induct (fun s => GotI s.data.sd ∧ GotI0 s.data.sd) ⟨fun p hp => ?_, fun p _ => rfl⟩ ?_ hr
  · exact absurd hp (Nat.not_lt_zero _)
  · intro s l s' hr1 ih hs
    rcases step_sd hs with h | ⟨t, ch, f, rest, a, -, he, hst, hS⟩
    · rw [h]; exact ih
    · exact got_step (ty1_I hr1) hS ih

/-- At most one get_future succeeds for one promise. -/
theorem C36_once (hr : SR A ad i0 s) {p q : Nat} (hp : s.data.sd.obj q = some p) : gotCount s.data.sd.slog p ≤ 1 := by
  obtain ⟨h1, h2⟩ := (ty1_I hr).obj q p hp
  rw [(got_ok hr).1 p h1 h2]
  split <;> omega

/-- get_future of a promise with state `p` succeeds if no earlier one of that promise did, and returns the future of `p`;
    otherwise it throws `future_already_retrieved` and changes nothing.  (`retrieved` is an atomic test_and_set.) -/
theorem C36_first (hr : SR A ad i0 s) {t q p : Nat} {rest : List (Fr α φ)} (hst : s.stk t = .client (.poFut q) :: rest)
    (hexc : (s.thr t).exc = none) (hp : s.data.sd.obj q = some p) {ch : Ch χ} (hs : step (client A) s (.th t ch) = some s') :
    s'.stk t = rest ∧
    ((gotCount s.data.sd.slog p = 0 ∧ (s'.thr t).exc = none ∧ (s'.thr t).rv = .nat p ∧ gotCount s'.data.sd.slog p = 1) ∨
     (gotCount s.data.sd.slog p = 1 ∧ (s'.thr t).exc = some .futureRetrieved ∧ s'.data = s.data)) := by
  obtain ⟨h1, h2⟩ := (ty1_I hr).obj q p hp
  have hc := (got_ok hr).1 p h1 h2
  rcases step_cl hs with ⟨f, rest', d', a, hexc, hold, hstep, hdata, hact, -⟩ | ⟨f, rest, hexc, hold, hcs, hdata, -⟩ | ⟨e, he, -⟩ |
    ⟨e, f, k, rest, he, -⟩ | ⟨e, f, rest, he, -⟩ | ⟨e, g, g', rest, he, -⟩ | ⟨e, g, rest, he, -⟩ | ⟨hold, -⟩
  · rw [hst] at hold
    cases hold
    cases client_cs hstep with
    | sync f sd a hS =>
      cases hS <;> simp only [ActTo] at hact
      case poFutN hq => rw [hp] at hq; cases hq
      case poFutBad p' hrt hq =>
        rw [hp] at hq; obtain rfl := Option.some.inj hq
        exact ⟨hact.1, .inr ⟨by rw [hc, hrt]; rfl, hact.2, hdata⟩⟩
      case poFut p' hrt hq =>
        rw [hp] at hq; obtain rfl := Option.some.inj hq
        refine ⟨hact.1, .inl ⟨by rw [hc, hrt]; rfl, hact.2.1, hact.2.2, ?_⟩⟩
        have h0 : List.countP _ s.data.sd.slog = _ := hc
        rw [hdata]
        simp only [SData.ev, SData.setSt, gotCount, List.countP_cons, beq_self_eq_true, if_true]
        rw [h0, hrt]; rfl
  · rw [hst] at hold; cases hold
  all_goals first
    | (rw [hexc] at he; cases he; done)
    | (rw [hst] at hold; cases hold)

/-! ## C31 -/

/-- The thread is notified for exit, or not registered (`this_thread::notified_for_exit()`, thread.cpp:597-609). -/
theorem notified_iff (hr : SR A ad i0 s) (t : Nat) :
    s.notified t = true ↔ s.loc t = none ∨ ∃ c, s.loc t = some c ∧ Ev.exitSet c ∈ s.log := by
  have hl : s.loc t = (s.thr t).loc := rfl
  simp only [St.notified, hl]
  cases h : (s.thr t).loc with
  | none => simp
  | some c => simp [(QInv.reach hr).exit c]

/-- Phases of future::wait. -/
def FwPh (p : Nat) : SFrame α φ → Prop
  | .fwIn? o => o = some p
  | .fwIn q => q = p
  | .fwLoop q => q = p
  | .fwChk q => q = p
  | .swIn w => w = .fw p
  | .swLoop w _ _ => w = .fw p
  | .swChk w _ _ => w = .fw p
  | .swBefore w _ _ => w = .fw p
  | .swAfter w _ _ => w = .fw p
  | .swRem w _ _ _ => w = .fw p
  | _ => False

theorem FwPh.frag (hr : SR A ad i0 s0) {t n p : Nat} {g : SFrame α φ} {rest : List (Fr α φ)} (hst : s0.stk t = .client g :: rest)
    (h0 : FwPh p g) (hf : Frag (client A) t rest s0 n s) : ∃ pre f, s.stk t = pre ++ .client f :: rest ∧ (s.term = true ∨ FwPh p f) := by
  refine SFrag.ind (fun f _ => FwPh p f) hr hst h0 (fun g s h => h) ?_ ?_ ?_ hf
  · intro s1 s2 f g d' a ch hr1 hst1 he hp hS hc hd hs hck hst2
    cases hS
    case laRet K c => exact False.elim hp
    case laEnd K c => exact False.elim hp
    all_goals first
      | exact False.elim hp
      | (cases hp; done)
      | (cases hc; done)
      | (have hc := Option.some.inj hc; subst hc; first | exact hp | (cases hp; exact rfl))
  · intro s1 s2 f g e hr1 hst1 he hp hnt hf hd
    exfalso
    cases f <;> first | exact hp | exact hnt trivial | (cases hf; done)
  · intro s1 s2 f l hr1 hp hs _ _ _
    exact hp

theorem fw_last (hr : SR A ad i0 s0) {t n p : Nat} {g : SFrame α φ} {rest : List (Fr α φ)} (hst : s0.stk t = .client g :: rest)
    (h0 : FwPh p g) (hf : Frag (client A) t rest s0 n s) {l : Lbl χ} (hs : step (client A) s l = some s')
    (hend : s'.stk t = rest) (hexc : (s'.thr t).exc = none) : (s'.data.sd.ready p = true ∨ s'.notified t = true) := by
  obtain ⟨pre, f, hg, hph⟩ := FwPh.frag hr hst h0 hf
  have hr1 := hf.reach hr
  have h3 := hph.resolve_left (by rw [step_live hs]; simp)
  obtain ⟨rfl, hlast, ch, rfl⟩ := SFrag.last hr1 hg hs hend (by rintro g rfl; exact h3)
  cases hlast with
  | ret v d' he hS hdata hexc' hrv =>
    generalize hret : (.ret v : Act (STask α) (SFrame α φ)) = a at hS
    have ho := (own_notified hg hs he).1
    cases hS <;> first
      | exact False.elim h3
      | (cases hret; done)
      | (cases h3; done)
      | skip
    case fwOk q h => cases h3; exact .inl (by rw [hdata]; exact h)
    case fwExit q h => exact .inr (ho.trans h)
  | throw e d' he hS hdata hexc' => rw [hexc] at hexc'; cases hexc'
  | unwind e he hnt hf hdata hexc' => rw [hexc] at hexc'; cases hexc'

/-- `future::wait()` returns normally only if the shared state is ready or the calling thread is notified for exit or not
    registered (`notified_iff`). -/
theorem C31_wait (hr : SR A ad i0 s0) {t n p : Nat} {rest : List (Fr α φ)} (hst : s0.stk t = .client (.fwIn? (some p)) :: rest)
    (hf : Frag (client A) t rest s0 n s) {l : Lbl χ} (hs : step (client A) s l = some s')
    (hend : s'.stk t = rest) (hexc : (s'.thr t).exc = none) : (s'.data.sd.st p).status ≠ .notSet ∨ s'.notified t = true := by
  rcases fw_last hr hst (rfl : FwPh p (.fwIn? (some p))) hf hs hend hexc with h | h
  · exact .inl (by simpa [SData.ready] using h)
  · exact .inr h

/-- A null future. -/
theorem C31_null (_hr : SR A ad i0 s) {t : Nat} {rest : List (Fr α φ)} {d : Int} (hst : s.stk t = .client (.fwIn? none) :: rest ∨
      s.stk t = .client (.fgIn? none) :: rest ∨ s.stk t = .client (.fvIn? none d) :: rest)
    (hexc : (s.thr t).exc = none) {ch : Ch χ} (hs : step (client A) s (.th t ch) = some s') :
    s'.stk t = rest ∧ (s'.thr t).exc = some .noState ∧ s'.data = s.data := by
  rcases step_cl hs with ⟨f, rest', d', a, hexc, hold, hstep, hdata, hact, -⟩ | ⟨f, rest, hexc, hold, hcs, hdata, -⟩ | ⟨e, he, -⟩ |
    ⟨e, f, k, rest, he, -⟩ | ⟨e, f, rest, he, -⟩ | ⟨e, g, g', rest, he, -⟩ | ⟨e, g, rest, he, -⟩ | ⟨hold, -⟩
  · rw [hold] at hst
    rcases hst with h | h | h <;> cases h <;> cases client_cs hstep with
      | sync f sd a hS =>
        cases hS <;> simp only [ActTo] at hact
        exact ⟨hact.1, hact.2, hdata⟩
  · rw [hold] at hst; rcases hst with h | h | h <;> cases h
  all_goals first
    | (rw [hexc] at he; cases he; done)
    | (rw [hold] at hst; rcases hst with h | h | h <;> cases h)

/-- The timed wait of the core inside wait_for, and what is known when it has ended. -/
def Inner (A : App α φ δ χ) (ad : δ) (i0 : φ) (t : Nat) (g : SFrame α φ) (e : Int) (rest : List (Fr α φ)) (s : SSt α φ δ) : Prop :=
  (∃ s1 n now, SR A ad i0 s1 ∧ s1.stk t = .core (.waitForIn (e - now)) :: .client g :: rest ∧ now ≤ (s1.clock : Int) ∧
    Frag (client A) t (.client g :: rest) s1 n s) ∨
  (s.stk t = .client g :: rest ∧ ((s.thr t).exc = none → (s.thr t).rv = .cv true → e ≤ s.clock + 999))

theorem Inner.step {t : Nat} {g : SFrame α φ} {e : Int} {rest : List (Fr α φ)} (hr : SR A ad i0 s) (h : Inner A ad i0 t g e rest s) {l : Lbl χ}
    (hs : step (client A) s l = some s') (hst : ∃ pre, s'.stk t = pre ++ .client g :: rest) (hl : s.stk t = .client g :: rest → ∀ ch, l ≠ .th t ch) :
    Inner A ad i0 t g e rest s' := by
  have hck := step_clock hs
  rcases h with ⟨s1, n, now, hr1, hs1, hnow, hfr⟩ | ⟨h1, h2⟩
  · rcases Frag.inner hfr hs hst with ⟨m, hfr'⟩ | hend
    · exact .inl ⟨s1, m, now, hr1, hs1, hnow, hfr'⟩
    · refine .inr ⟨hend, fun he hv => ?_⟩
      obtain ⟨w, c, hw, hw2, -⟩ := C21_timeout hr1 (WaitCall.waitFor _) hs1 hfr hs hend he hv
      obtain rfl := Option.some.inj hw
      omega
  · obtain ⟨e1, e2, e3, e4, -⟩ := still hr (by rw [h1]; simp) hs (hl h1)
    refine .inr ⟨e1.trans h1, ?_⟩
    rw [e2, e3]
    intro a b
    have := h2 a b
    omega

/-- Phases of future::wait_for(d) called at time `c0`. -/
def FvPh (A : App α φ δ χ) (ad : δ) (i0 : φ) (t : Nat) (rest : List (Fr α φ)) (p : Nat) (d : Int) (c0 : Int) (s : SSt α φ δ) : SFrame α φ → Prop
  | .fvIn? o d' => o = some p ∧ d' = d
  | .fvIn q d' => q = p ∧ d' = d
  | .fvLoop q d' => q = p ∧ d' = d
  | .fvChk q d' => q = p ∧ d' = d
  | .wfIn w d' => w = .fv p d ∧ d' = d
  | .wfAdd w now e => w = .fv p d ∧ c0 + d ≤ e ∧ now ≤ s.clock
  | .wfLoop w _ _ now e b => w = .fv p d ∧ c0 + d ≤ e ∧ now ≤ s.clock ∧ (b = true → e ≤ s.clock + 999)
  | .wfChk w _ _ now e b => w = .fv p d ∧ c0 + d ≤ e ∧ now ≤ s.clock ∧ (b = true → e ≤ s.clock + 999)
  | .wfBefore w _ _ now e => w = .fv p d ∧ c0 + d ≤ e ∧ now ≤ s.clock
  | .wfAfter w i k e => w = .fv p d ∧ c0 + d ≤ e ∧ Inner A ad i0 t (.wfAfter w i k e) e rest s
  | .wfNow w _ _ e b => w = .fv p d ∧ c0 + d ≤ e ∧ (b = true → e ≤ s.clock + 999)
  | .wfRem w _ b _ _ => w = .fv p d ∧ (b = true → c0 + d ≤ s.clock + 999)
  | .fvRes q d' b => q = p ∧ d' = d ∧ (b = true → c0 + d ≤ s.clock + 999)
  | _ => False

theorem FvPh.frag (hr : SR A ad i0 s0) {t n p : Nat} {d : Int} {rest : List (Fr α φ)} (hst : s0.stk t = .client (.fvIn? (some p) d) :: rest)
    (hf : Frag (client A) t rest s0 n s) : ∃ pre f, s.stk t = pre ++ .client f :: rest ∧ (s.term = true ∨
      s0.clock ≤ s.clock ∧ FvPh A ad i0 t rest p d s0.clock s f) := by
  refine SFrag.ind (fun f s => s0.clock ≤ s.clock ∧ FvPh A ad i0 t rest p d s0.clock s f) hr hst ⟨Nat.le_refl _, rfl, rfl⟩ (fun g s h => h.2) ?_ ?_ ?_ hf
  · intro s1 s2 f g d' a ch hr1 hst1 he hp hS hc hd hs hck hst2
    obtain ⟨hle, hp⟩ := hp
    refine ⟨by omega, ?_⟩
    have hv : (s1.view t).clock = s1.clock := rfl
    cases hS <;> first | exact False.elim hp | (cases hc; done) | skip
    case fvS q dur hq => cases hp.1; cases hp.2; cases hc; exact ⟨rfl, rfl⟩
    case fvIn => cases hc; exact hp
    case fvNot => cases hc; exact hp
    case fvStay => obtain ⟨rfl, rfl⟩ := hp; cases hc; exact ⟨rfl, rfl⟩
    case wfIn => obtain ⟨rfl, rfl⟩ := hp; cases hc; exact ⟨rfl, by simp only [hv]; omega, by rw [hck, hv]; omega⟩
    case wfAdd => obtain ⟨rfl, h1, h2⟩ := hp; cases hc; exact ⟨rfl, h1, by rw [hck]; omega, by simp⟩
    case wfSig => obtain ⟨rfl, h1, h2, h3⟩ := hp; cases hc; exact ⟨rfl, fun h => by have := h3 h; rw [hck]; omega⟩
    case wfTime => obtain ⟨rfl, h1, h2, h3⟩ := hp; cases hc; exact ⟨rfl, fun h => by rw [hck]; omega⟩
    case wfNot => obtain ⟨rfl, h1, h2, h3⟩ := hp; cases hc; exact ⟨rfl, h1, by rw [hck]; omega, by rw [hck]; exact h3⟩
    case wfExit => obtain ⟨rfl, h1, h2, h3⟩ := hp; cases hc; exact ⟨rfl, fun h => by have := h3 h; rw [hck]; omega⟩
    case wfStay => obtain ⟨rfl, h1, h2, h3⟩ := hp; cases hc; exact ⟨rfl, h1, by rw [hck]; omega⟩
    case wfBefore i k now e =>
      obtain ⟨rfl, h1, h2⟩ := hp; cases hc
      exact ⟨rfl, h1, .inl ⟨s2, 0, now, hr1.step hs, hst2, by rw [hck]; exact h2, .here _ hst2⟩⟩
    case wfAfterN => obtain ⟨rfl, -⟩ := hp; contradiction
    case wfAfterL i k e l h hl =>
      obtain ⟨rfl, h1, h2⟩ := hp; cases hc
      refine ⟨rfl, h1, fun h => ?_⟩
      rcases h2 with ⟨s3, n, now, -, -, -, hfr⟩ | ⟨-, h3⟩
      · obtain ⟨pre, f, hfr⟩ := hfr.active
        exact (top_ne (hst1.symm.trans hfr)).elim
      · rw [hck]; exact h3 he (by simpa using h)
    case wfNow => obtain ⟨rfl, h1, h2⟩ := hp; cases hc; exact ⟨rfl, h1, by rw [hck, hv]; omega, by rw [hck]; exact h2⟩
    case wfRemV => obtain ⟨h1, h2⟩ := hp; cases h1; cases hc; exact ⟨rfl, rfl, by rw [hck]; exact h2⟩
    case fvAgain => cases hc; exact ⟨hp.1, hp.2.1⟩
  · intro s1 s2 f g e hr1 hst1 he hp hnt hf hd
    exfalso
    cases f <;> first | exact hp.2 | exact hnt trivial | (cases hf; done)
  · intro s1 s2 f l hr1 hp hs h1 h2 h3
    obtain ⟨hle, hp⟩ := hp
    have hck := step_clock hs
    have key : ∀ {b : Bool} {x : Int}, (b = true → x ≤ s1.clock + 999) → (b = true → x ≤ s2.clock + 999) := fun h hb => by have := h hb; omega
    refine ⟨by omega, ?_⟩
    cases f <;> first
      | exact hp
      | exact ⟨hp.1, hp.2.1, by have := hp.2.2; omega⟩
      | exact ⟨hp.1, hp.2.1, by have := hp.2.2.1; omega, key hp.2.2.2⟩
      | exact ⟨hp.1, key hp.2⟩
      | exact ⟨hp.1, hp.2.1, key hp.2.2⟩
      | exact ⟨hp.1, hp.2.1, hp.2.2.step hr1 hs h2 h3⟩

/-- `future::wait_for(d)` returns `ready` only if the shared state is ready, `deferred` only if the calling thread is notified
    for exit or not registered, `timeout` only if `d` less at most 999 ns has passed since the call; it returns nothing else.
    Partial: the property says that `d` has passed; the code rounds the remaining time down to microseconds. -/
theorem C31_wait_for_partial (hr : SR A ad i0 s0) {t n p : Nat} {d : Int} {rest : List (Fr α φ)}
    (hst : s0.stk t = .client (.fvIn? (some p) d) :: rest) (hf : Frag (client A) t rest s0 n s) {l : Lbl χ} (hs : step (client A) s l = some s')
    (hend : s'.stk t = rest) (hexc : (s'.thr t).exc = none) :
    ((s'.thr t).rv = .fs .ready ∧ (s'.data.sd.st p).status ≠ .notSet) ∨ ((s'.thr t).rv = .fs .deferred ∧ s'.notified t = true) ∨
    ((s'.thr t).rv = .fs .timeout ∧ (s0.clock : Int) + d ≤ s'.clock + 999) := by
  obtain ⟨pre, f, hg, hph⟩ := FvPh.frag hr hst hf
  have hr1 := hf.reach hr
  obtain ⟨-, h3⟩ := hph.resolve_left (by rw [step_live hs]; simp)
  obtain ⟨rfl, hlast, ch, rfl⟩ := SFrag.last hr1 hg hs hend (by rintro g rfl; exact h3)
  cases hlast with
  | ret v d' he hS hdata hexc' hrv =>
    generalize hret : (.ret v : Act (STask α) (SFrame α φ)) = a at hS
    obtain ⟨ho, -, -, hck⟩ := own_notified hg hs he
    cases hS <;> first
      | exact False.elim h3
      | (cases hret; done)
      | (have := h3.1; cases this; done)
      | skip
    case fvOk q dur h => cases hret; obtain ⟨rfl, rfl⟩ := h3; exact .inl ⟨hrv, by rw [hdata]; simpa [SData.ready, SData.setLk] using h⟩
    case fvExit q h => cases hret; exact .inr (.inl ⟨hrv, ho.trans h⟩)
    case fvTime q dur => cases hret; obtain ⟨rfl, rfl, h3⟩ := h3; exact .inr (.inr ⟨hrv, by rw [hck]; exact h3 rfl⟩)
  | throw e d' he hS hdata hexc' => rw [hexc] at hexc'; cases hexc'
  | unwind e he hnt hf hdata hexc' => rw [hexc] at hexc'; cases hexc'

/-! ## C30 -/

/-- An exception stored in a state that is not ready: a setter is between storing it and making the state ready. -/
theorem exn_inflight (hr : SR A ad i0 s) {p : Nat} {e : Exn} (h1 : (s.data.sd.st p).status = .notSet) (h2 : (s.data.sd.st p).exn = some e) :
    ∃ u rest, s.stk u = .client (.srSet p (.exn e)) :: rest := by
  obtain ⟨hi, ht⟩ := top2_ok hr
  have hlk : s.data.sd.lk (.guard p) ≠ none := by
    intro h
    have := (hi.free p h h1).2
    rw [h2] at this; cases this
  obtain ⟨u, hu⟩ := Option.ne_none_iff_exists'.1 hlk
  obtain ⟨g, hg, hw⟩ := guard_held hr hu
  obtain ⟨pre, rest, hsp⟩ := List.append_of_mem hg
  have hok := stk_ok hr
  rcases List.eq_nil_or_concat pre with rfl | ⟨pre, x, rfl⟩
  · have he : (s.thr u).exc = none := by
      by_contra he
      have := hok.exc u _ _ he hsp
      cases g <;> first | (cases hw; done) | exact this trivial
    have h3 := ht u g rest hsp he
    by_cases hs : isSrSet g
    · cases g <;> first | exact False.elim hs | skip
      rename_i q r
      obtain rfl := beq_one hw
      have := (h3.1 _ _ rfl).2
      cases r with
      | val w => have := this.2; rw [h2] at this; cases this
      | exn e' => have := this.2; rw [h2] at this; cases this; exact ⟨u, rest, hsp⟩
    · have := (h3.2 hs p hw h1).2
      rw [h2] at this; cases this
  · exfalso
    have hadj : Adj (.client g) x := by
      have h : chain Adj _ := hok.chain u
      rw [hsp] at h
      exact chain_mid (pre := pre) (rest := rest) (by simpa using h)
    have hT := ty1_F hr (t := u) (g := g) hg
    cases g <;> first | (cases hw; done) | exact False.elim hadj | skip
    rename_i K i k l
    cases K <;> first | (cases hw; done) | skip
    rename_i q cs
    obtain rfl := beq_one hw
    have := hT.1.2
    simp [SData.ready, h1] at this

/-- The wait inside get, and what is known when it has ended. -/
def GetIn (A : App α φ δ χ) (ad : δ) (i0 : φ) (t p : Nat) (rest : List (Fr α φ)) (s : SSt α φ δ) : Prop :=
  (∃ s1 n, SR A ad i0 s1 ∧ s1.stk t = .client (.fwIn p) :: .client (.fgVal p) :: rest ∧
    Frag (client A) t (.client (.fgVal p) :: rest) s1 n s) ∨
  (s.stk t = .client (.fgVal p) :: rest ∧ ((s.thr t).exc = none → s.data.sd.ready p = true ∨ s.notified t = true))

/-- Phases of get. -/
def FgPh (A : App α φ δ χ) (ad : δ) (i0 : φ) (t : Nat) (rest : List (Fr α φ)) (p : Nat) (s : SSt α φ δ) : SFrame α φ → Prop
  | .fgIn? o => o = some p
  | .fgVal q => q = p ∧ p < s.data.sd.nst ∧ GetIn A ad i0 t p rest s
  | _ => False

theorem FgPh.frag (hr : SR A ad i0 s0) {t n p : Nat} {rest : List (Fr α φ)} (hst : s0.stk t = .client (.fgIn? (some p)) :: rest)
    (hf : Frag (client A) t rest s0 n s) : ∃ pre f, s.stk t = pre ++ .client f :: rest ∧ (s.term = true ∨ FgPh A ad i0 t rest p s f) := by
  refine SFrag.ind (fun f s => FgPh A ad i0 t rest p s f) hr hst rfl (fun g s h => h) ?_ ?_ ?_ hf
  · intro s1 s2 f g d' a ch hr1 hst1 he hp hS hc hd hs hck hst2
    cases hS <;> first | exact False.elim hp | (cases hc; done) | skip
    case fgS q hq =>
      cases hp; cases hc
      exact ⟨rfl, by rw [hd]; exact hq, .inl ⟨s2, 0, hr1.step hs, hst2, .here _ hst2⟩⟩
  · intro s1 s2 f g e hr1 hst1 he hp hnt hf hd
    exfalso
    cases f <;> first | exact hp | exact hnt trivial | (cases hf; done)
  · intro s1 s2 f l hr1 hp hs h1 h2 h3
    cases f <;> first | exact hp | skip
    rename_i q
    obtain ⟨rfl, hn, hp⟩ := hp
    have hx := step_ext hs
    refine ⟨rfl, Nat.lt_of_lt_of_le hn hx.nst, ?_⟩
    rcases hp with ⟨s3, n, hr3, hs3, hfr⟩ | ⟨h4, h5⟩
    · rcases Frag.inner hfr hs h2 with ⟨m, hfr'⟩ | hend
      · exact .inl ⟨s3, m, hr3, hs3, hfr'⟩
      · exact .inr ⟨hend, fun he => fw_last hr3 hs3 (rfl : FwPh q (.fwIn q)) hfr hs hend he⟩
    · obtain ⟨e1, e2, e3, e4, e5⟩ := still hr1 (by rw [h4]; simp) hs (h3 h4)
      refine .inr ⟨e1.trans h4, ?_⟩
      rw [e3]
      intro he
      exact (h5 he).imp (hx.ready hn) e5

/-- What a call of get on state `p` ends with, at the state `s` before its last step.  `threwInWait`: an exception of a task that the
    wait inside get executed passes through. -/
inductive GetEnd (p : Nat) (t : Nat) (s s' : SSt α φ δ) : Prop
  | value (w : Val) (hv : (s.data.sd.st p).isVoid = false) (hexc : (s'.thr t).exc = none) (hrv : (s'.thr t).rv = w)
      (h : Holds (s'.data.sd.st p) (.val w)) (hset : ∃ u, .sat u p (.val w) ∈ s'.data.sd.slog)
  | void (w : Val) (hv : (s.data.sd.st p).isVoid = true) (hexc : (s'.thr t).exc = none) (h : Holds (s'.data.sd.st p) (.val w))
      (hset : ∃ u, .sat u p (.val w) ∈ s'.data.sd.slog)
  | error (e : Exn) (hexc : (s'.thr t).exc = some e) (h : Holds (s'.data.sd.st p) (.exn e)) (hset : ∃ u, .sat u p (.exn e) ∈ s'.data.sd.slog)
  | notReady (hv : (s.data.sd.st p).isVoid = false) (hexc : (s'.thr t).exc = some .brokenPromise) (h : (s'.data.sd.st p).status = .notSet)
      (hex : s'.notified t = true)
  | voidNotReady (hv : (s.data.sd.st p).isVoid = true) (hexc : (s'.thr t).exc = none) (h : (s'.data.sd.st p).status = .notSet)
      (hex : s'.notified t = true)
  | voidRace (e : Exn) (hv : (s.data.sd.st p).isVoid = true) (hexc : (s'.thr t).exc = some e) (h : (s'.data.sd.st p).status = .notSet)
      (hset : ∃ u rest, s.stk u = .client (.srSet p (.exn e)) :: rest) (hex : s'.notified t = true)
  | threwInWait (e : Exn) (h : (s.thr t).exc = some e) (hexc : (s'.thr t).exc = some e)

theorem sats_mem {log : List SEv} {p : Nat} {r : Res} (h : sats log p = [r]) : ∃ u, .sat u p r ∈ log := by
  have hm : r ∈ sats log p := by rw [h]; simp
  clear h
  obtain ⟨e, he, h⟩ := List.mem_filterMap.1 hm
  cases e <;> simp only [SEv.satOf] at h <;> first | contradiction | skip
  split at h
  · rename_i hq; subst hq; cases h; exact ⟨_, he⟩
  · contradiction

/-- future::get / shared_future::get: every way the call can end.
    Partial: the property says that get never returns normally from a state that is not ready; `voidNotReady` is such an end and
    can happen (`C30_void_not_ready`): `future<void>::get` of a thread notified for exit.  Likewise `voidRace`: it throws the
    exception that a concurrent setter has stored but not published yet. -/
theorem C30_get_partial (hr : SR A ad i0 s0) {t n p : Nat} {rest : List (Fr α φ)} (hst : s0.stk t = .client (.fgIn? (some p)) :: rest)
    (hf : Frag (client A) t rest s0 n s) {l : Lbl χ} (hs : step (client A) s l = some s') (hend : s'.stk t = rest) : GetEnd p t s s' := by
  obtain ⟨pre, f, hg, hph⟩ := FgPh.frag hr hst hf
  have hr1 := hf.reach hr
  have h3 := hph.resolve_left (by rw [step_live hs]; simp)
  obtain ⟨rfl, hlast, ch, rfl⟩ := SFrag.last hr1 hg hs hend (by rintro g rfl; exact h3)
  cases hlast with
  | unwind e he hnt hf hdata hexc' => exact .threwInWait e he hexc'
  | ret v d' he hS hdata hexc' hrv =>
    generalize hret : (.ret v : Act (STask α) (SFrame α φ)) = a at hS
    obtain ⟨ho, -, -, hck⟩ := own_notified hg hs he
    have hout := (top2_ok hr1).1.out p
    have hfree := (top2_ok hr1).1.free p
    cases hS <;> first | exact False.elim h3 | (cases hret; done) | skip
    case fgVoid q hv hx =>
      cases hret
      obtain ⟨rfl, hn, hin⟩ := h3
      have hrd : s.data.sd.ready q = true ∨ s.notified t = true := by
        rcases hin with ⟨s3, n, hr3, hs3, hfr⟩ | ⟨-, h5⟩
        · obtain ⟨pre, f, hfr⟩ := hfr.active
          exact (top_ne (hg.symm.trans hfr)).elim
        · exact h5 he
      simp only [outc] at hout
      cases hst : (s.data.sd.st q).status <;> simp only [hst] at hout
      · refine .voidNotReady hv hexc' (by rw [hdata]; exact hst) (ho.trans (hrd.resolve_left ?_))
        simp [SData.ready, hst]
      · obtain ⟨w, h1, h2, h3⟩ := hout
        exact .void w hv hexc' (by rw [hdata]; exact ⟨hst, h2, h3⟩) (by rw [hdata]; exact sats_mem h1)
      · obtain ⟨e, h1, h2, h3⟩ := hout
        rw [hx] at h3; cases h3
    case fgVal q w hv hl hx =>
      cases hret
      obtain ⟨rfl, hn, hin⟩ := h3
      simp only [outc] at hout
      cases hst : (s.data.sd.st q).status <;> simp only [hst] at hout
      · have := (hfree hl hst).1
        rw [hx] at this; cases this
      · obtain ⟨w', h1, h2, h3⟩ := hout
        have : w' = v := by rw [hx] at h2; simpa [hv] using h2.symm
        subst this
        exact .value _ hv hexc' hrv (by rw [hdata]; exact ⟨hst, h2, h3⟩) (by rw [hdata]; exact sats_mem h1)
      · obtain ⟨e, h1, h2, h3⟩ := hout
        rw [hx] at h2; cases h2
  | throw e d' he hS hdata hexc' =>
    generalize hret : (.throw e : Act (STask α) (SFrame α φ)) = a at hS
    obtain ⟨ho, -, -, hck⟩ := own_notified hg hs he
    have hout := (top2_ok hr1).1.out p
    have hfree := (top2_ok hr1).1.free p
    have hrd : ∀ {q}, FgPh A ad i0 t rest p s (.fgVal q) → f = .fgVal q → s.data.sd.ready q = true ∨ s.notified t = true := by
      rintro q ⟨rfl, hn, hin⟩ rfl
      rcases hin with ⟨s3, n, hr3, hs3, hfr⟩ | ⟨-, h5⟩
      · obtain ⟨pre, f, hfr⟩ := hfr.active
        exact (top_ne (hg.symm.trans hfr)).elim
      · exact h5 he
    cases hS <;> first | exact False.elim h3 | (cases hret; done) | skip
    case fgN => cases h3
    case fgVoidE q e' hv hx =>
      cases hret
      have hrd' := hrd h3 rfl
      obtain ⟨rfl, hn, hin⟩ := h3
      simp only [outc] at hout
      cases hst : (s.data.sd.st q).status <;> simp only [hst] at hout
      · refine .voidRace e hv hexc' (by rw [hdata]; exact hst) (exn_inflight hr1 hst hx) (ho.trans (hrd'.resolve_left ?_))
        simp [SData.ready, hst]
      · obtain ⟨w, h1, h2, h3⟩ := hout
        rw [hx] at h3; cases h3
      · obtain ⟨e', h1, h2, h3⟩ := hout
        rw [hx] at h3; cases h3
        exact .error _ hexc' (by rw [hdata]; exact ⟨hst, h2, hx⟩) (by rw [hdata]; exact sats_mem h1)
    case fgExn q e' hv hl hx hx' =>
      cases hret
      obtain ⟨rfl, hn, hin⟩ := h3
      simp only [outc] at hout
      cases hst : (s.data.sd.st q).status <;> simp only [hst] at hout
      · have := (hfree hl hst).2
        rw [hx'] at this; cases this
      · obtain ⟨w, h1, h2, h3⟩ := hout
        rw [hx'] at h3; cases h3
      · obtain ⟨e', h1, h2, h3⟩ := hout
        rw [hx'] at h3; cases h3
        exact .error _ hexc' (by rw [hdata]; exact ⟨hst, h2, hx'⟩) (by rw [hdata]; exact sats_mem h1)
    case fgNone q hv hl hx hx' =>
      cases hret
      have hrd' := hrd h3 rfl
      obtain ⟨rfl, hn, hin⟩ := h3
      simp only [outc] at hout
      cases hst : (s.data.sd.st q).status <;> simp only [hst] at hout
      · refine .notReady hv hexc' (by rw [hdata]; exact hst) (ho.trans (hrd'.resolve_left ?_))
        simp [SData.ready, hst]
      · obtain ⟨w, h1, h2, h3⟩ := hout
        rw [hx] at h2; simp [hv] at h2
      · obtain ⟨e', h1, h2, h3⟩ := hout
        rw [hx'] at h3; cases h3

/-- For a value type, get returns normally only from a ready state and only the value that was set. -/
theorem C30_value (hr : SR A ad i0 s0) {t n p : Nat} {rest : List (Fr α φ)} (hst : s0.stk t = .client (.fgIn? (some p)) :: rest)
    (hf : Frag (client A) t rest s0 n s) {l : Lbl χ} (hs : step (client A) s l = some s') (hend : s'.stk t = rest)
    (hv : (s.data.sd.st p).isVoid = false) (hexc : (s'.thr t).exc = none) :
    Holds (s'.data.sd.st p) (.val (s'.thr t).rv) ∧ ∃ u, .sat u p (.val (s'.thr t).rv) ∈ s'.data.sd.slog := by
  cases C30_get_partial hr hst hf hs hend with
  | value w _ _ hrv h hset => subst hrv; exact ⟨h, hset⟩
  | void _ hv' => rw [hv] at hv'; cases hv'
  | error e he => rw [hexc] at he; cases he
  | notReady _ he => rw [hexc] at he; cases he
  | voidNotReady hv' => rw [hv] at hv'; cases hv'
  | voidRace _ hv' => rw [hv] at hv'; cases hv'
  | threwInWait e _ he => rw [hexc] at he; cases he

end

/-! ## Concrete cases -/

/-- set_value returns: hypotheses of `C29_set`. -/
example : ∃ s0 n s s', SR (tableApp demo1) () 1 s0 ∧ s0.stk 0 = .client (.svIn 0 (.val (.nat 7))) :: [.client (.app 5)] ∧
    Frag (demo demo1) 0 [.client (.app 5)] s0 n s ∧ step (demo demo1) s (.th 0 .go) = some s' ∧
    (s'.stk 0, (s'.thr 0).exc, (s'.data.sd.st 0).value) = ([.client (.app 5)], none, some (.nat 7)) :=
  sfragWit (ls1 := go 0 10) (ls2 := go 0 7) (hnd := fun _ => none) (obs := fun _ _ _ s' => (s'.stk 0, (s'.thr 0).exc, (s'.data.sd.st 0).value)) (by decide +kernel)

/-- set_exception after set_value throws: hypotheses of `C29_set`, `C29_frozen`. -/
example : ∃ s0 n s s', SR (tableApp demo2) () 1 s0 ∧ s0.stk 0 = .client (.svIn 0 (.exn (.user 3))) :: [.client (.app 6)] ∧
    Frag (demo demo2) 0 [.client (.app 6)] s0 n s ∧ step (demo demo2) s (.th 0 .go) = some s' ∧
    (s'.stk 0, (s'.thr 0).exc, (s'.data.sd.st 0).value, (s'.data.sd.st 0).exn) = ([.client (.app 6)], some .promiseSatisfied, some (.nat 7), none) :=
  sfragWit (ls1 := go 0 20) (ls2 := go 0 1) (hnd := fun _ => none)
    (obs := fun _ _ _ s' => (s'.stk 0, (s'.thr 0).exc, (s'.data.sd.st 0).value, (s'.data.sd.st 0).exn)) (by decide +kernel)

/-- Hypotheses of `C29_promise`. -/
example : ∃ s s', SR (tableApp demo1) () 1 s ∧ step (demo demo1) s (.th 0 .go) = some s' ∧
    (s.stk 0, (s.thr 0).exc) = ([.client (.poSet 0 (.val (.nat 7))), .client (.app 5)], none) :=
  sstepWit (ls := go 0 9) (hnd := fun _ => none) (fun s _ => (s.stk 0, (s.thr 0).exc)) (by decide +kernel)

/-- First and second get_future: hypotheses of `C36_first`, `C36_once`. -/
example : ∃ s s', SR (tableApp demo3) () 1 s ∧ step (demo demo3) s (.th 0 .go) = some s' ∧
    (s.stk 0, (s.thr 0).exc, s.data.sd.obj 0, (s'.thr 0).rv) = ([.client (.poFut 0), .client (.app 4)], none, some 0, .nat 0) :=
  sstepWit (ls := go 0 7) (hnd := fun _ => none) (fun s s' => (s.stk 0, (s.thr 0).exc, s.data.sd.obj 0, (s'.thr 0).rv)) (by decide +kernel)

example : ∃ s s', SR (tableApp demo3) () 1 s ∧ step (demo demo3) s (.th 0 .go) = some s' ∧
    (s.stk 0, (s.thr 0).exc, s.data.sd.obj 0, (s'.thr 0).exc) = ([.client (.poFut 0), .client (.app 5)], none, some 0, some .futureRetrieved) :=
  sstepWit (ls := go 0 9) (hnd := fun _ => none) (fun s s' => (s.stk 0, (s.thr 0).exc, s.data.sd.obj 0, (s'.thr 0).exc)) (by decide +kernel)

/-- get returns 7: hypotheses of `C30_get_partial`, `C30_value` (and of `fw_last` for the wait inside). -/
example : ∃ s0 n s s', SR (tableApp demo1) () 1 s0 ∧ s0.stk 0 = .client (.fgIn? (some 0)) :: [.client (.app 6)] ∧
    Frag (demo demo1) 0 [.client (.app 6)] s0 n s ∧ step (demo demo1) s (.th 0 .go) = some s' ∧
    (s'.stk 0, (s'.thr 0).exc, (s'.thr 0).rv, (s.data.sd.st 0).isVoid) = ([.client (.app 6)], none, .nat 7, false) :=
  sfragWit (ls1 := go 0 19) (ls2 := go 0 3) (hnd := fun _ => none)
    (obs := fun _ _ s s' => (s'.stk 0, (s'.thr 0).exc, (s'.thr 0).rv, (s.data.sd.st 0).isVoid)) (by decide +kernel)

/-- The full C30 is false: `future<void>::get` of a registered thread that is notified for exit returns normally although nothing
    was ever set. -/
theorem C30_void_not_ready : ∃ s0 n s s', SR (tableApp demo4) () 1 s0 ∧ s0.stk 0 = .client (.fgIn? (some 0)) :: [.client (.app 6)] ∧
    Frag (demo demo4) 0 [.client (.app 6)] s0 n s ∧ step (demo demo4) s (.th 0 .go) = some s' ∧
    (s'.stk 0, (s'.thr 0).exc, (s'.data.sd.st 0).status, s'.getId 0) = ([.client (.app 6)], none, .notSet, 1) :=
  sfragWit (ls1 := go 0 13) (ls2 := go 0 4) (hnd := fun _ => none)
    (obs := fun _ _ _ s' => (s'.stk 0, (s'.thr 0).exc, (s'.data.sd.st 0).status, s'.getId 0)) (by decide +kernel)

/-- The full C31 is false: wait_for(1500ns) returns `timeout` 1000ns after the call (and although the state is ready). Also
    hypotheses of `C31_wait_for_partial`. -/
theorem C31_early_timeout : ∃ s0 n s s', SR (tableApp demo5) () 1 s0 ∧ s0.stk 0 = .client (.fvIn? (some 0) 1500) :: [.client (.app 6)] ∧
    Frag (demo demo5) 0 [.client (.app 6)] s0 n s ∧ step (demo demo5) s (.th 0 .go) = some s' ∧
    (s'.stk 0, (s'.thr 0).exc, (s'.thr 0).rv, s'.clock - s0.clock, s'.data.sd.ready 0) = ([.client (.app 6)], none, .fs .timeout, 1000, true) :=
  sfragWit (ls1 := go 0 11) (ls2 := go 0 11 ++ [.tick 1000, .th 0 .timeout] ++ go 1 15 ++ go 0 4) (hnd := fun _ => none)
    (obs := fun s0 _ _ s' => (s'.stk 0, (s'.thr 0).exc, (s'.thr 0).rv, s'.clock - s0.clock, s'.data.sd.ready 0)) (by decide +kernel)

/-- wait_for ends with `ready` because thread 1 sets the promise. -/
example : ∃ s0 n s s', SR (tableApp demo5) () 1 s0 ∧ s0.stk 0 = .client (.fvIn? (some 0) 1500) :: [.client (.app 6)] ∧
    Frag (demo demo5) 0 [.client (.app 6)] s0 n s ∧ step (demo demo5) s (.th 0 .go) = some s' ∧
    (s'.stk 0, (s'.thr 0).exc, (s'.thr 0).rv) = ([.client (.app 6)], none, .fs .ready) :=
  sfragWit (ls1 := go 0 11) (ls2 := go 0 11 ++ go 1 15 ++ go 0 10) (hnd := fun _ => none)
    (obs := fun _ _ _ s' => (s'.stk 0, (s'.thr 0).exc, (s'.thr 0).rv)) (by decide +kernel)

/-- wait: hypotheses of `C31_wait`. -/
example : ∃ s0 n s s', SR (tableApp [.sync (.promNew 0 false) 2, .sync (.futWait (some 0)) 3]) () 1 s0 ∧
    s0.stk 0 = .client (.fwIn? (some 0)) :: [.client (.app 3)] ∧
    Frag (demo [.sync (.promNew 0 false) 2, .sync (.futWait (some 0)) 3]) 0 [.client (.app 3)] s0 n s ∧
    step (demo [.sync (.promNew 0 false) 2, .sync (.futWait (some 0)) 3]) s (.th 0 .go) = some s' ∧
    (s'.stk 0, (s'.thr 0).exc) = ([.client (.app 3)], none) :=
  sfragWit (ls1 := go 0 3) (ls2 := go 0 3) (hnd := fun _ => none) (obs := fun _ _ _ s' => (s'.stk 0, (s'.thr 0).exc)) (by decide +kernel)

/-- A null future: hypotheses of `C31_null`. -/
example : ∃ s s', SR (tableApp [.sync (.futWait none) 2]) () 1 s ∧ step (demo [.sync (.futWait none) 2]) s (.th 0 .go) = some s' ∧
    (s.stk 0, (s.thr 0).exc) = ([.client (.fwIn? none), .client (.app 2)], none) :=
  sstepWit (ls := go 0 1) (hnd := fun _ => none) (fun s _ => (s.stk 0, (s.thr 0).exc)) (by decide +kernel)

end Itc
