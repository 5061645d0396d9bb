import Verif.Sync.Place
import Verif.Sync.Demo
import Verif.Core.Calls
import Verif.Props.Tasks
import Verif.Props.Future

/-!
# Launching of continuations and tasks: C33, C34

For every application code `A` (all numbers of threads, promises, continuations) and every schedule.
-/
namespace Itc
open Core Sync
section
variable {α φ δ χ : Type} {A : App α φ δ χ} {ad : δ} {i0 : φ} {s s' s0 : SSt α φ δ}

/-! ## Specification vocabulary -/

/-- Number of launches of the packaged task with state `p`. -/
def launchCount (log : List SEv) (p : Nat) : Nat := log.countP fun e => match e with
  | .launched _ q _ _ _ => q == p
  | _ => false

theorem launchCount_eq (log : List SEv) (p : Nat) : launchCount log p = nlau p log := by
  induction log with
  | nil => rfl
  | cons e log ih =>
    have ih : List.countP _ log = _ := ih
    simp only [launchCount, nlau, List.countP_cons, lsum_cons]
    rw [ih]
    simp only [nlau]
    cases e
    case launched t q i as o => by_cases h : q = p <;> simp [evO, h, b1]; omega
    all_goals simp [evO]

/-- This activation has to launch the continuation with state `p'` of the ready state `q`: `set_ready` of `q` after swapping out the
    callbacks, with `p'` among those not launched yet (future_state.hpp:118-140), or `set_continuation` that found `q` ready. -/
def Launching (q p' : Nat) : SFrame α φ → Prop
  | .naIn (.fut q' l) => q' = q ∧ ∃ c ∈ l, c.p = p'
  | .nLoop (.fut q' l) _ => q' = q ∧ ∃ c ∈ l, c.p = p'
  | .nCall (.fut q' l) _ _ _ => q' = q ∧ ∃ c ∈ l, c.p = p'
  | .nAfter (.fut q' l) _ _ _ => q' = q ∧ ∃ c ∈ l, c.p = p'
  | .srUnl q' l => q' = q ∧ ∃ c ∈ l, c.p = p'
  | .srLoop q' _ l => q' = q ∧ ∃ c ∈ l, c.p = p'
  | .laIn (.sr q' _ l) c => q' = q ∧ ∃ c' ∈ c :: l, c'.p = p'
  | .laRet (.sr q' _ l) _ => q' = q ∧ ∃ c ∈ l, c.p = p'
  | .laInl (.sr q' _ l) _ => q' = q ∧ ∃ c ∈ l, c.p = p'
  | .laIn .sc c => c.p = p'
  | _ => False

/-! ## C33 -/

/-- Every continuation (and every task given to async) is launched at most once. -/
theorem C33_at_most_once (hr : SR A ad i0 s) (p : Nat) : launchCount s.data.sd.slog p ≤ 1 := by
  rw [launchCount_eq]; exact nlau_le hr p

/-- A continuation attached to `q` is not launched before `q` was made ready. -/
theorem C33_not_before_ready (hr : SR A ad i0 s) {t p i o u q : Nat} {as : Bool} {es es' : List SEv}
    (hlog : s.data.sd.slog = es ++ .launched t p i as o :: es') (ha : .attached u q p ∈ s.data.sd.slog) :
    ∃ v r, .sat v q r ∈ es' := by
  have hi := ty3_I hr
  refine (hi.hist _ _ _ _ _ _ _ hlog).1 q ?_
  rw [hlog, List.mem_append, List.mem_cons] at ha
  rcases ha with ha | ha | ha
  · obtain ⟨a, b, rfl⟩ := List.append_of_mem ha
    refine absurd ?_ (hi.hatt a u q p (b ++ .launched t p i as o :: es') (by rw [hlog]; simp))
    exact ⟨t, i, as, o, by simp⟩
  · cases ha
  · exact ⟨u, ha⟩

theorem mem_attB {q p u : Nat} {a b : List SEv} (h : ∀ v r, .sat v q r ∉ b) : p ∈ attB q (a ++ .attached u q p :: b) := by
  have h1 : p ∈ attB q (.attached u q p :: b) := by
    simp only [attB]
    rw [if_pos ⟨trivial, by rintro ⟨v, r, hm⟩; exact h v r hm⟩]
    simp
  exact (attB_prefix a).subset h1

theorem attB_order {q p1 p2 u1 u2 : Nat} {b e : List SEv} (h : ∀ v r, .sat v q r ∉ b ++ .attached u1 q p1 :: e) :
    ∃ x y, attB q (.attached u2 q p2 :: (b ++ .attached u1 q p1 :: e)) = x ++ p2 :: [] ∧ p1 ∈ x ∧ y = 0 := by
  refine ⟨attB q (b ++ .attached u1 q p1 :: e), 0, ?_, mem_attB fun v r hm => h v r (by simp [hm]), rfl⟩
  simp only [attB]
  rw [if_pos ⟨trivial, by rintro ⟨v, r, hm⟩; exact h v r hm⟩]

/-- Continuations attached before `q` became ready are launched in the order of attachment: when `p2`, attached after `p1` and before
    readiness, is launched, `p1` was launched already. -/
theorem C33_order (hr : SR A ad i0 s) {q p1 p2 u1 u2 t i o : Nat} {as : Bool} {a b e es es' : List SEv}
    (hatt : s.data.sd.slog = a ++ .attached u2 q p2 :: (b ++ .attached u1 q p1 :: e))
    (hbefore : ∀ v r, .sat v q r ∉ b ++ .attached u1 q p1 :: e)
    (hlog : s.data.sd.slog = es ++ .launched t p2 i as o :: es') : ∃ t' i' as' o', .launched t' p1 i' as' o' ∈ es' := by
  have hi := ty3_I hr
  obtain ⟨x, -, h1, h2, -⟩ := attB_order (u2 := u2) (p2 := p2) hbefore
  have hord := (hi.hist _ _ _ _ _ _ _ hlog).2
  -- the attachment of p2 is older than its launch
  have hpos : ∃ a', es' = a' ++ .attached u2 q p2 :: (b ++ .attached u1 q p1 :: e) := by
    have h3 : es ++ .launched t p2 i as o :: es' = a ++ .attached u2 q p2 :: (b ++ .attached u1 q p1 :: e) := by rw [← hlog, hatt]
    have h3' : (es ++ [.launched t p2 i as o]) ++ es' = a ++ .attached u2 q p2 :: (b ++ .attached u1 q p1 :: e) := by rw [← h3]; simp
    rcases split_app h3' with h | ⟨a1, a2, h4, h5⟩
    · exact h
    · exfalso
      refine hi.hatt a u2 q p2 (b ++ .attached u1 q p1 :: e) hatt ?_
      rw [h5]
      rcases List.eq_nil_or_concat a2 with rfl | ⟨a2, y, rfl⟩
      · have := congrArg List.getLast? h4
        simp at this
      · have h6 : es ++ [.launched t p2 i as o] = (a1 ++ .attached u2 q p2 :: a2) ++ [y] := by rw [h4]; simp
        have := (List.append_inj' h6 rfl).2
        simp only [List.cons.injEq, and_true] at this
        exact ⟨t, i, as, o, by simp [this]⟩
  obtain ⟨a', h4⟩ := hpos
  obtain ⟨z, h5⟩ := attB_prefix (q := q) (l := .attached u2 q p2 :: (b ++ .attached u1 q p1 :: e)) a'
  exact hord q x z (by rw [h4, ← h5, h1]; simp) p1 h2

theorem cn_mem {p : Nat} : ∀ {l : List (Kont α)}, 1 ≤ cn p l → ∃ c ∈ l, c.p = p
  | [], h => by simp [cn] at h
  | c :: l, h => by
    by_cases hc : c.p = p
    · exact ⟨c, by simp, hc⟩
    · have : 1 ≤ cn p l := by simpa [cn, b1, hc] using h
      obtain ⟨c', h1, h2⟩ := cn_mem this
      exact ⟨c', by simp [h1], h2⟩

theorem mem_cn {p : Nat} {l : List (Kont α)} {c : Kont α} (hc : c ∈ l) (hp : c.p = p) : 1 ≤ cn p l := by
  have := lsum_mem (w := fun c : Kont α => b1 c.p p) hc
  simpa [cn, b1, hp] using this

theorem nsum_pos {f : Nat → Nat} : ∀ {n : Nat}, 1 ≤ nsum n f → ∃ i, i < n ∧ 1 ≤ f i
  | 0, h => by simp [nsum] at h
  | n + 1, h => by
    by_cases hn : 1 ≤ f n
    · exact ⟨n, by omega, hn⟩
    · have h0 : 1 ≤ nsum n f := by simp only [nsum] at h; omega
      obtain ⟨i, h1, h2⟩ := nsum_pos h0
      exact ⟨i, by omega, h2⟩

theorem lsum_pos {β : Type} {w : β → Nat} : ∀ {l : List β}, 1 ≤ lsum w l → ∃ x ∈ l, 1 ≤ w x
  | [], h => by simp at h
  | x :: l, h => by
    by_cases hx : 1 ≤ w x
    · exact ⟨x, by simp, hx⟩
    · obtain ⟨y, h1, h2⟩ := lsum_pos (w := w) (l := l) (by rw [lsum_cons] at h; omega)
      exact ⟨y, by simp [h1], h2⟩

/-- Nothing but frames of the layer has weight in the account of launches. -/
theorem lo_L {p : Nat} {f : Fr α φ} (h : 1 ≤ f.lo (wts δ φ .L p)) : ∃ g, f = .client g ∧ 1 ≤ fw .L p g := by
  cases f with
  | client g => exact ⟨g, rfl, h⟩
  | core f =>
    exfalso
    have hl : ∀ l : List (STask α), lsum (ktw 0 p) l = 0 := by
      intro l; induction l with
      | nil => rfl
      | cons k l ih => rw [lsum_cons, ih]; cases k <;> simp [ktw]
    have hk : ∀ k : STask α, ktw 0 p k = 0 := by intro k; cases k <;> simp [ktw]
    cases f <;> simp [Frame.lo, CF.lw, CF.tw, wts, Tab.tl, Tab.tr, Tab.tw, hl, hk] at h

theorem thw_L {p t : Nat} (h : 1 ≤ thw (wts δ φ .L p) s t) : ∃ g, .client g ∈ s.stk t ∧ 1 ≤ fw .L p g := by
  have hhi : ∀ (f : Fr α φ) (v : Val), f.hi (wts δ φ .L p) v = f.lo (wts δ φ .L p) := by
    intro f v
    cases f with
    | client g => cases g <;> simp [Frame.lo, Frame.hi, wts, fx, Tab.r1, Tab.i1]
    | core f => cases f <;> simp [Frame.lo, Frame.hi, CF.lw, CF.tw, wts, Tab.tl, Tab.tr]
  have hhx : ∀ (f : Fr α φ), f.hx (wts δ φ .L p) = f.lo (wts δ φ .L p) := by
    intro f
    cases f with
    | client g => rfl
    | core f => exact hhi (.core f) .unit
  have : 1 ≤ losum (wts δ φ .L p) (s.stk t) := by
    unfold thw stw at h
    split at h
    · cases hst : s.stk t with
      | nil => rw [hst] at h; simpa [topHi] using h
      | cons f r => rw [hst] at h; simp only [topHi, hhi, losum_cons] at h ⊢; omega
    · cases hst : s.stk t with
      | nil => rw [hst] at h; simpa [topHx] using h
      | cons f r => rw [hst] at h; simp only [topHx, hhx, losum_cons] at h ⊢; omega
  obtain ⟨f, h1, h2⟩ := lsum_pos this
  obtain ⟨g, rfl, h3⟩ := lo_L h2
  exact ⟨g, h1, h3⟩

/-- A continuation attached to a ready state was launched, exactly once, or it was not launched and there is an activation that has
    to launch it. -/
theorem C33_launched (hr : SR A ad i0 s) {u q p : Nat} (ha : .attached u q p ∈ s.data.sd.slog) (hq : (s.data.sd.st q).status ≠ .notSet) :
    launchCount s.data.sd.slog p = 1 ∨
      launchCount s.data.sd.slog p = 0 ∧ ∃ t f, .client f ∈ s.stk t ∧ Launching q p f := by
  have hi := ty3_I hr
  have hat : att q p s.data.sd.slog := ⟨u, ha⟩
  obtain ⟨hp, -⟩ := hi.pk q p hat
  have hn := natt_le hr p
  have hle := nlau_le hr p
  rw [launchCount_eq]
  by_cases h0 : nlau p s.data.sd.slog = 0
  · refine .inr ⟨h0, ?_⟩
    obtain ⟨N, h1, h2⟩ := lin_ok hr .L p
    have h3 : (wts δ φ .L p).inn s.data = 1 := inn_pkg hr hp
    have h2 : nsum N (thw (wts δ φ .L p) s) + nsum N (fun c => lsum (ktw 0 p) (s.ctxs c).pend) +
        (1 * CB p s.data.sd.nst s.data.sd.st + nlau p s.data.sd.slog) = (wts δ φ .L p).inn s.data := h2
    have hz : nsum N (fun c => lsum (ktw 0 p) (s.ctxs c).pend) = 0 := by
      have hl : ∀ l : List (STask α), lsum (ktw 0 p) l = 0 := by
        intro l; induction l with
        | nil => rfl
        | cons k l ih => rw [lsum_cons, ih]; cases k <;> simp [ktw]
      by_contra h
      obtain ⟨c, -, h⟩ := nsum_pos (Nat.one_le_iff_ne_zero.2 h)
      rw [hl] at h; omega
    have hcb : CB p s.data.sd.nst s.data.sd.st = 0 := by
      by_contra h
      obtain ⟨q', -, h⟩ := nsum_pos (f := fun q => cn p (s.data.sd.st q).cbs) (Nat.one_le_iff_ne_zero.2 h)
      obtain ⟨c, hc, hcp⟩ := cn_mem h
      cases hrd : s.data.sd.ready q' with
      | true => rw [hi.none q' hrd] at hc; simp at hc
      | false =>
        have hmem : p ∈ attB q' s.data.sd.slog := by rw [hi.cbs q' hrd]; exact List.mem_map.2 ⟨c, hc, hcp⟩
        obtain rfl := att_uniq hn hat (attB_att hmem)
        simp [SData.ready, hq] at hrd
    obtain ⟨t, -, ht⟩ := nsum_pos (f := thw (wts δ φ .L p) s) (n := N) (by omega)
    obtain ⟨f, hf, hw⟩ := thw_L ht
    refine ⟨t, f, hf, ?_⟩
    have h3F := ty3_F hr hf
    have rem : ∀ {q' : Nat} {l : List (Kont α)}, Rem q' l s.data.sd.slog → 1 ≤ cn p l → q' = q ∧ ∃ c ∈ l, c.p = p := by
      intro q' l h h'
      obtain ⟨c, hc, hcp⟩ := cn_mem h'
      obtain ⟨-, pre, h4, -⟩ := h
      refine ⟨?_, c, hc, hcp⟩
      refine att_uniq hn (attB_att ?_) hat
      rw [h4]; exact List.mem_append.2 (.inr (List.mem_map.2 ⟨c, hc, hcp⟩))
    cases f <;> simp only [fw, Tab.run0, Tab.run1, Tab.dt, Tab.d1, Tab.l1, Tab.i0, Nat.zero_mul, Nat.one_mul, Nat.zero_add] at hw <;>
      first | omega | skip
    case naIn K => cases K <;> simp only [NK.lw, Tab.l1, Nat.one_mul] at hw <;> first | omega | exact rem h3F hw
    case nLoop K l => cases K <;> simp only [NK.lw, Tab.l1, Nat.one_mul] at hw <;> first | omega | exact rem h3F hw
    case nCall K _ _ _ => cases K <;> simp only [NK.lw, Tab.l1, Nat.one_mul] at hw <;> first | omega | exact rem h3F hw
    case nAfter K _ _ _ => cases K <;> simp only [NK.lw, Tab.l1, Nat.one_mul] at hw <;> first | omega | exact rem h3F hw
    case srUnl q' l => exact rem h3F hw
    case srLoop q' dn l => exact rem h3F hw
    case scIn q' c =>
      have : 1 ≤ fw .A p (.scIn q' c : SFrame α φ) := hw
      exact absurd hat (not_att hr hf this q)
    case laIn K c =>
      cases K
      case sr q' dn l =>
        refine rem (l := c :: l) h3F ?_
        simp only [LK.own, LK.lw, Tab.l1, Tab.d1, Nat.one_mul, Nat.zero_mul, Nat.zero_add] at hw
        simpa [cn] using hw
      case sc =>
        have hw : 1 ≤ b1 c.p p := by simpa [LK.own, LK.lw, Tab.l1] using hw
        by_cases h : c.p = p
        · exact h
        · simp [b1, h] at hw
      case as =>
        have : 1 ≤ fw .A p (.laIn .as c : SFrame α φ) := by simpa [fw, LK.own, LK.lw] using hw
        exact absurd hat (not_att hr hf this q)
    case laRet K c => cases K <;> simp only [LK.lw, Tab.d1, Tab.l1, Nat.one_mul, Nat.zero_mul, Nat.zero_add] at hw <;> first | omega | exact rem h3F.1 hw
    case laInl K c => cases K <;> simp only [LK.lw, Tab.d1, Tab.l1, Nat.one_mul, Nat.zero_mul, Nat.zero_add] at hw <;> first | omega | exact rem h3F.1 hw
    case term p' => cases p' <;> simp [fw, Tab.dt] at hw
  · exact .inl (by omega)

/-- When set_value / set_exception of `q` returns normally, every continuation attached before `q` became ready is launched. -/
theorem C33_set (hr : SR A ad i0 s0) {t n q : Nat} {r : Res} {rest : List (Fr α φ)} (hst : s0.stk t = .client (.svIn q r) :: rest)
    (hf : Frag (client A) t rest s0 n s) {l : Lbl χ} (hs : step (client A) s l = some s') (hend : s'.stk t = rest) (hexc : (s'.thr t).exc = none)
    {a b : List SEv} {u p : Nat} (hlog : s'.data.sd.slog = a ++ .attached u q p :: b) (hbefore : ∀ v r, .sat v q r ∉ b) :
    launchCount s'.data.sd.slog p = 1 := by
  obtain ⟨pre, f, hg, hph⟩ := SetPh.frag hr hst hf
  have hr1 := hf.reach hr
  have hr2 := hr1.step hs
  obtain ⟨-, h2, h3⟩ := hph.resolve_left (by rw [step_live hs]; simp)
  obtain ⟨rfl, hlast, ch, rfl⟩ := SFrag.last hr1 hg hs hend (by rintro g rfl; exact h3)
  have hle := nlau_le hr2 p
  rw [launchCount_eq]
  suffices lau p s'.data.sd.slog by have := lau_pos this; omega
  cases hlast with
  | ret v d' hexc hS hdata hexc' hrv =>
    generalize hret : (.ret v : Act (STask α) (SFrame α φ)) = x at hS
    have key : f = .srDtor q [] ∧ d' = s.data.sd := by
      cases hS
      case laRet K c => cases K <;> first | exact h3.1.elim | (cases hret; done)
      case laEnd K c => cases K <;> first | exact h3.1.elim | (cases hret; done)
      all_goals first
        | exact False.elim h3
        | (cases hret; done)
        | exact ⟨by rw [h3.1], rfl⟩
        | exact False.elim h3.1
    obtain ⟨rfl, rfl⟩ := key
    have h4 : Rem (α := α) q [] s.data.sd.slog := ty3_F hr1 (t := t) (g := .srDtor q []) (by rw [hg]; simp)
    obtain ⟨-, pre, h5, h6⟩ := h4
    rw [hdata] at hlog ⊢
    refine h6 p ?_
    simp only [List.map_nil, List.append_nil] at h5
    rw [← h5, hlog]
    exact mem_attB hbefore
  | throw e d' _ hS hdata hexc' => rw [hexc'] at hexc; cases hexc
  | unwind e hexc0 hnt hf hdata hexc' => rw [hexc'] at hexc; cases hexc

/-- set_continuation (called by `then`) attaches the continuation; if the state is ready, it launches it itself. -/
theorem C33_attach (hr : SR A ad i0 s) {t q : Nat} {c : Kont α} {rest : List (Fr α φ)} {ch : Ch χ} (hst : s.stk t = .client (.scIn q c) :: rest)
    (hs : step (client A) s (.th t ch) = some s') : .attached t q c.p ∈ s'.data.sd.slog ∧
      ((s.data.sd.st q).status ≠ .notSet → s'.stk t = .client (.laIn .sc c) :: rest) := by
  obtain ⟨a, hS, hact⟩ := own_ss hst hs (nt_exc hr hst trivial) (by simp)
  generalize s'.data.sd = d' at hS ⊢
  cases hS
  case scNow hl h => exact ⟨by simp [SData.ev, St.view], fun _ => hact.1⟩
  case scLater hl h => exact ⟨by simp [SData.ev, St.view], fun h' => absurd h' (by simpa [SData.ready] using h)⟩

/-! ## C34 -/

theorem mem_extract {τ β : Type} {f : Ev τ → Option β} {x : β} : ∀ {l : List (Ev τ)}, x ∈ extract f l ↔ ∃ e ∈ l, f e = some x
  | [] => by simp [extract]
  | e :: l => by
    have ih := mem_extract (f := f) (x := x) (l := l)
    simp only [extract, List.mem_append, List.mem_cons, exists_eq_or_imp, ih]
    cases h : f e <;> simp [eq_comm, or_comm]

theorem started_accepted (hr : SR A ad i0 s) {t c : Nat} {k : STask α} (h : Ev.started t c k ∈ s.log) : ∃ u i, Ev.accepted u c i k ∈ s.log := by
  have h1 : k ∈ stas c s.log := mem_extract.2 ⟨_, h, by simp⟩
  have h2 := (C05_fifo hr c).subset h1
  obtain ⟨e, he, hk⟩ := mem_extract.1 h2
  cases e <;> simp at hk
  rename_i u c' i k'
  obtain ⟨rfl, rfl⟩ := hk
  exact ⟨u, i, he⟩

/-- Where the function of the packaged task `p` may run, given its launch by thread `u` (own id `o`) with target `i`:
    on the launching thread itself, when the policy is not `async` and the target is the own id; otherwise on the thread registered
    with the target id, out of its queue, to which the launching thread gave it. -/
def Placed (log : List (Ev (STask α))) (t p u i o : Nat) (as : Bool) : Prop :=
  (as = false ∧ o = i ∧ t = u) ∨
  ((as = true ∨ o ≠ i) ∧ ∃ c a, Ev.registered c i t ∈ log ∧ Ev.accepted u c i (.fut p a) ∈ log ∧ Ev.started t c (.fut p a) ∈ log)

theorem place_new (hr : SR A ad i0 s) {t p : Nat} {a : α} {rest : List (Fr α φ)} (hst : s.stk t = .client (.ftRun p a) :: rest)
    (hp : (s.data.sd.st p).owner = .pkg) : ∃ u i as o, .launched u p i as o ∈ s.data.sd.slog ∧ Placed s.log t p u i o as := by
  rcases below_run (p := p) hr hst rfl with ⟨K, c, r, rfl, rfl⟩ | ⟨c, b, r, r', rfl⟩ | ⟨r, rfl⟩
  · obtain ⟨-, i, h⟩ := ty4_F hr (t := t) (g := .laInl K c) (by rw [hst]; simp)
    exact ⟨t, i, false, i, h, .inl ⟨rfl, rfl, rfl⟩⟩
  · have h1 : Ev.started t c (.fut p b) ∈ s.log := (LInv.reach hr).fr t (.core (.ran c (.fut p b) r)) (by rw [hst]; simp)
    obtain ⟨u, i, h2⟩ := started_accepted hr h1
    obtain ⟨as, o, h3, h4⟩ := (postL_ok hr).log u c i _ h2 p b rfl
    obtain ⟨id, h5, h6⟩ := C07_right_thread hr (.inl h1)
    obtain rfl := h6 _ _ _ h2
    exact ⟨u, i, as, o, h3, .inr ⟨h4, c, b, h5, h2, h1⟩⟩
  · have h := (ty1_F hr (t := t) (g := .xtRet p) (by rw [hst]; simp)).2
    rw [hp] at h; cases h

theorem Placed.mono {s s' : SSt α φ δ} {l : Lbl χ} (hs : step (client A) s l = some s') {t p u i o : Nat} {as : Bool}
    (h : Placed s.log t p u i o as) : Placed s'.log t p u i o as := by
  cases l with
  | tick n => rw [step_tick _ s s' n hs]; exact h
  | th v ch =>
    have hm := log_mono (step_eff (client A) s s' v ch hs)
    rcases h with h | ⟨h1, c, a, h2, h3, h4⟩
    · exact .inl h
    · exact .inr ⟨h1, c, a, hm _ h2, hm _ h3, hm _ h4⟩

/-- **C34.** Whenever the function of a task or continuation given to async / then runs on a thread `t`, it was launched by a thread
    `u` with target id `i`; without launch::async and with `i` the own id of `u`, `t` is `u` and it runs inline; otherwise it was put
    into the queue of the thread registered as `i`, and runs on that thread out of that queue. -/
theorem C34_place (hr : SR A ad i0 s) {t p : Nat} (h : .bodyStart t p ∈ s.data.sd.slog) (hp : (s.data.sd.st p).owner = .pkg) :
    ∃ u i as o, .launched u p i as o ∈ s.data.sd.slog ∧ Placed s.log t p u i o as := by
  have main : ∀ t p, .bodyStart t p ∈ s.data.sd.slog → p < s.data.sd.nst ∧ ((s.data.sd.st p).owner = .pkg →
      ∃ u i as o, .launched u p i as o ∈ s.data.sd.slog ∧ Placed s.log t p u i o as) := by
    refine Reach.induct (fun s => ∀ t p, .bodyStart t p ∈ s.data.sd.slog → p < s.data.sd.nst ∧ ((s.data.sd.st p).owner = .pkg →
      ∃ u i as o, .launched u p i as o ∈ s.data.sd.slog ∧ Placed s.log t p u i o as)) ?_ ?_ hr
    · intro t p h; simp [Core.init] at h
    · intro s l s' hr ih hs t p h
      have hx := step_ext hs
      have key : .bodyStart t p ∈ s.data.sd.slog ∨ ∃ a rest, s.stk t = .client (.ftRun p a) :: rest := by
        rcases step_sd hs with hd | ⟨u, ch, f, rest, a, -, -, hst, hS⟩
        · rw [hd] at h; exact .inl h
        · generalize s'.data.sd = d' at hS h
          cases hS
          case ftRun q a =>
            simp only [SData.ev, List.mem_cons, SEv.bodyStart.injEq] at h
            rcases h with ⟨rfl, rfl⟩ | h
            · exact .inr ⟨a, rest, hst⟩
            · exact .inl h
          case swIn => unfold SData.addWaiter at h; split at h <;> exact .inl (by simpa using h)
          case wfAdd => unfold SData.addWaiter at h; split at h <;> exact .inl (by simpa using h)
          case swBefore w _ _ => cases hw : w.lk <;> rw [hw] at h <;> exact .inl h
          case wfBefore w _ _ _ _ => cases hw : w.lk <;> rw [hw] at h <;> exact .inl h
          all_goals first
            | exact .inl h
            | exact .inl (List.mem_of_ne_of_mem (by simp) h)
      have old : p < s.data.sd.nst ∧ ((s.data.sd.st p).owner = .pkg →
          ∃ u i as o, .launched u p i as o ∈ s.data.sd.slog ∧ Placed s.log t p u i o as) := by
        rcases key with h | ⟨a, rest, hst⟩
        · exact ih t p h
        · exact ⟨(ty1_top hr hst).1, place_new hr hst⟩
      refine ⟨lt_mono hx old.1, fun hp => ?_⟩
      rw [hx.owner old.1] at hp
      obtain ⟨u, i, as, o, h1, h2⟩ := old.2 hp
      exact ⟨u, i, as, o, hx.mem h1, h2.mono hs⟩
  exact (main t p h).2 hp

/-- The launch of a continuation or task uses what was given to then / async: the policy, and as the target the given id, or, when
    that is the invalid id 0, the id `o` of the launching thread. -/
theorem C34_given (hr : SR A ad i0 s) {u p i o : Nat} {as : Bool} (h : .launched u p i as o ∈ s.data.sd.slog) :
    ∃ c, (s.data.sd.st p).req = some c ∧ as = c.async ∧ i = if c.id = 0 then o else c.id := ((ty4_I hr).lau _ _ _ _ _ h).2

/-- The function that is called is the one given to then / async. -/
theorem C34_body (hr : SR A ad i0 s) {t p : Nat} {a : α} (h : .client (.ftRun p a) ∈ s.stk t) (hp : (s.data.sd.st p).owner = .pkg) :
    ∃ c, (s.data.sd.st p).req = some c ∧ c.body = a := (ty4_F hr h).2 hp

/-- The event `bodyStart` is the call: it is logged by the thread that is about to call the function, in the step that enters the function. -/
theorem C34_runs {t u p : Nat} {ch : Ch χ} (hs : step (client A) s (.th t ch) = some s') (h : .bodyStart u p ∈ s'.data.sd.slog)
    (h0 : .bodyStart u p ∉ s.data.sd.slog) : u = t ∧ ∃ a rest, s.stk t = .client (.ftRun p a) :: rest ∧
      s'.stk t = .client (.app (A.run a)) :: .client (.ftSet p) :: rest := by
  rcases step_sd hs with hd | ⟨t', ch', f, rest, x, hl, he, hst, hS⟩
  · rw [hd] at h; exact absurd h h0
  · cases hl
    have key : ∃ a, f = .ftRun p a ∧ u = t := by
      generalize s'.data.sd = d' at hS h
      cases hS
      case ftRun q a =>
        simp only [SData.ev, List.mem_cons, SEv.bodyStart.injEq] at h
        rcases h with ⟨rfl, rfl⟩ | h
        · exact ⟨a, rfl, rfl⟩
        · exact absurd h h0
      case swIn => unfold SData.addWaiter at h; split at h <;> exact absurd (by simpa using h) h0
      case wfAdd => unfold SData.addWaiter at h; split at h <;> exact absurd (by simpa using h) h0
      case swBefore w _ _ => cases hw : w.lk <;> rw [hw] at h <;> exact absurd h h0
      case wfBefore w _ _ _ _ => cases hw : w.lk <;> rw [hw] at h <;> exact absurd h h0
      all_goals first
        | exact absurd h h0
        | exact absurd (List.mem_of_ne_of_mem (by simp) h) h0
    obtain ⟨a, rfl, rfl⟩ := key
    obtain ⟨x, hS, hact⟩ := own_ss hst hs he (by simp)
    generalize s'.data.sd = d' at hS
    cases hS
    exact ⟨rfl, a, rest, hst, hact.1⟩

/-- The id with which a launch is recorded is the id of the launching thread: 0, or the one of a registration of that thread. -/
theorem C34_own (hr : SR A ad i0 s) {u p i o : Nat} {as : Bool} (h : .launched u p i as o ∈ s.data.sd.slog) :
    o = 0 ∨ ∃ c, .registered c o u ∈ s.log := by
  refine Reach.induct (fun s : SSt α φ δ => ∀ u p i as o, .launched u p i as o ∈ s.data.sd.slog → o = 0 ∨ ∃ c, .registered c o u ∈ s.log)
    ?_ ?_ hr u p i as o h
  · intro u p i as o h
    simp [Core.init] at h
  · intro s l s' hr ih hs u p i as o h
    have old : .launched u p i as o ∈ s.data.sd.slog → o = 0 ∨ ∃ c, .registered c o u ∈ s'.log := by
      intro h
      obtain h | ⟨c, h⟩ := ih u p i as o h
      · exact .inl h
      · exact .inr ⟨c, step_logm hs h⟩
    rcases step_sd hs with hd | ⟨t', ch', f, rest, x, hl, he, hst, hS⟩
    · rw [hd] at h; exact old h
    · have key : .launched u p i as o ∈ s.data.sd.slog ∨ u = t' ∧ o = s.getId t' := by
        generalize s'.data.sd = d' at hS h
        cases hS
        case laQueue => simp [SData.ev, St.view] at h; rcases h with ⟨rfl, -, -, -, rfl⟩ | h; exact .inr ⟨rfl, rfl⟩; exact .inl h
        case laInl => simp [SData.ev, St.view] at h; rcases h with ⟨rfl, -, -, -, rfl⟩ | h; exact .inr ⟨rfl, rfl⟩; exact .inl h
        case swIn => unfold SData.addWaiter at h; split at h <;> exact .inl (by simpa using h)
        case wfAdd => unfold SData.addWaiter at h; split at h <;> exact .inl (by simpa using h)
        case swBefore w _ _ => cases hw : w.lk <;> rw [hw] at h <;> exact .inl h
        case wfBefore w _ _ _ _ => cases hw : w.lk <;> rw [hw] at h <;> exact .inl h
        all_goals first
          | exact .inl h
          | exact .inl (List.mem_of_ne_of_mem (by simp) h)
      rcases key with h | ⟨rfl, rfl⟩
      · exact old h
      · cases hc : s.loc u with
        | none => exact .inl (by simp only [St.getId]; rw [show (s.thr u).loc = _ from hc])
        | some c =>
          obtain ⟨h1, h2, -⟩ := (WF.reach hr).loc u c hc
          refine .inr ⟨c, ?_⟩
          exact step_logm hs (((LInv.reach hr).regd c _ u).2 ⟨h1, by simp only [St.getId]; rw [show (s.thr u).loc = _ from hc], h2⟩)

/-- And every such step is logged. -/
theorem C34_logged (hr : SR A ad i0 s) {t p : Nat} {a : α} {rest : List (Fr α φ)} {ch : Ch χ} (hst : s.stk t = .client (.ftRun p a) :: rest)
    (hs : step (client A) s (.th t ch) = some s') : s'.data.sd.slog = .bodyStart t p :: s.data.sd.slog ∧
      s'.stk t = .client (.app (A.run a)) :: .client (.ftSet p) :: rest := by
  obtain ⟨x, hS, hact⟩ := own_ss hst hs (nt_exc hr hst trivial) (by simp)
  generalize s'.data.sd = d' at hS ⊢
  cases hS
  exact ⟨rfl, hact.1⟩

/-- async: a new state, for exactly the given id, policy and function. -/
theorem C34_async (hr : SR A ad i0 s) {t id : Nat} {as b : Bool} {a : α} {rest : List (Fr α φ)} {ch : Ch χ}
    (hst : s.stk t = .client (SApi.async id as b a).entry :: rest) (hs : step (client A) s (.th t ch) = some s') :
    ∃ c, s'.stk t = .client (.laIn .as c) :: rest ∧ c = ⟨id, as, s.data.sd.nst, a⟩ ∧ (s'.data.sd.st c.p).req = some c ∧
      (s'.data.sd.st c.p).owner = .pkg := by
  obtain ⟨x, hS, hact⟩ := own_ss hst hs (nt_exc hr hst trivial) (by simp [SApi.entry])
  simp only [SApi.entry] at hS
  generalize s'.data.sd = d' at hS ⊢
  cases hS
  exact ⟨_, hact.1, rfl, by simp [SData.mkState], by simp [SData.mkState]⟩

/-- then: a new state, for exactly the given id, policy and function. -/
theorem C34_then (hr : SR A ad i0 s) {t id q : Nat} {as b : Bool} {a : α} {rest : List (Fr α φ)} {ch : Ch χ}
    (hst : s.stk t = .client (SApi.futThen (some q) id as b a).entry :: rest) (hs : step (client A) s (.th t ch) = some s') (hterm : s'.term = false) :
    ∃ c k, s'.stk t = .client (.scIn q c) :: .client k :: rest ∧ c = ⟨id, as, s.data.sd.nst, a⟩ ∧ (s'.data.sd.st c.p).req = some c ∧
      (s'.data.sd.st c.p).owner = .pkg := by
  obtain ⟨x, hS, hact⟩ := own_ss hst hs (nt_exc hr hst trivial) (by simp [SApi.entry])
  simp only [SApi.entry] at hS
  generalize s'.data.sd = d' at hS ⊢
  cases hS
  case thS => exact ⟨_, _, hact.1, rfl, by simp [SData.mkState], by simp [SData.mkState]⟩
  case thBad => rw [hact.2.1] at hterm; cases hterm

/-- The step of `launch`: the launch is recorded with the id of the launching thread, and it calls the function at once or hands the
    task to the queue of the target. -/
theorem C34_launch (hr : SR A ad i0 s) {t : Nat} {K : LK α} {c : Kont α} {rest : List (Fr α φ)} {ch : Ch χ}
    (hst : s.stk t = .client (.laIn K c) :: rest) (hs : step (client A) s (.th t ch) = some s') :
    ∃ i, .launched t c.p i c.async (s.getId t) ∈ s'.data.sd.slog ∧ (i = if c.id = 0 then s.getId t else c.id) ∧
      (c.async = false ∧ s.getId t = i → s'.stk t = .client (.ftRun c.p c.body) :: .client (.laInl K c) :: rest) ∧
      (¬ (c.async = false ∧ s.getId t = i) → s'.stk t = .core (.invLook i (.fut c.p c.body) false) :: .client (.laRet K c) :: rest) := by
  obtain ⟨x, hS, hact⟩ := own_ss hst hs (nt_exc hr hst trivial) (by simp)
  generalize s'.data.sd = d' at hS ⊢
  cases hS
  case laQueue id hid h =>
    refine ⟨id, by simp [SData.ev, St.view], hid, fun h' => ?_, fun _ => hact.1⟩
    rcases h with h | h
    · rw [h] at h'; cases h'.1
    · exact absurd h'.2 h
  case laInl id hi hid h => exact ⟨id, by simp [SData.ev, St.view], hid, fun _ => hact.1, fun h1 => absurd ⟨h, hi⟩ h1⟩

end

/-! ## The hypotheses are met -/

/-- Main attaches two continuations, one for thread 1 and one for itself, sets the promise, and attaches a third one. -/
def demoLaunch : List (SAct Nat Nat) :=
  [.core .registerThis 2, .core (.spawn 1 10) 3, .sync (.promNew 0 false) 4, .sync (.getFuture 0) 5, .sync (.futThen (some 0) 2 false false 20) 6,
   .sync (.futThen (some 0) 0 false false 20) 7, .sync (.promSet 0 (.val (.nat 7))) 8, .sync (.futThen (some 0) 0 false false 20) 9, .ret .unit,
   .core .registerThis 11, .core .wait 12, .ret .unit, .ret .unit, .ret .unit, .ret .unit, .ret .unit, .ret .unit, .ret .unit, .ret .unit,
   .ret (.nat 5)]

/-- Continuations attached before readiness, in order, and launched in that order (`C33_at_most_once`, `C33_not_before_ready`, `C33_order`). -/
example : ∃ s : DSt, SR (tableApp demoLaunch) () 1 s ∧ ∃ a b e es es' u1 u2 t i as o,
    s.data.sd.slog = a ++ .attached u2 0 2 :: (b ++ .attached u1 0 1 :: e) ∧ (∀ v r, .sat v 0 r ∉ b ++ .attached u1 0 1 :: e) ∧
    s.data.sd.slog = es ++ .launched t 2 i as o :: es' := by
  obtain ⟨s, h1, h2⟩ := swit (l := demoLaunch) (ls := go 0 10 ++ go 1 6 ++ go 0 24) (hnd := fun _ => none) (fun s => s.data.sd.slog)
    (b := [.launched 0 2 1 false 1, .launched 0 1 2 false 1, .took 0 (.fut 0) [], .sat 0 0 (.val (.nat 7)), .attached 0 0 2, .made 0 2, .attached 0 0 1,
      .made 0 1, .gotFut 0 0, .made 0 0]) (by decide +kernel)
  exact ⟨s, h1, [.launched 0 2 1 false 1, .launched 0 1 2 false 1, .took 0 (.fut 0) [], .sat 0 0 (.val (.nat 7))], [.made 0 2],
    [.made 0 1, .gotFut 0 0, .made 0 0], [], [.launched 0 1 2 false 1, .took 0 (.fut 0) [], .sat 0 0 (.val (.nat 7)), .attached 0 0 2, .made 0 2, .attached 0 0 1,
      .made 0 1, .gotFut 0 0, .made 0 0], 0, 0, 0, 1, false, 1, h2, by simp, h2⟩

/-- Both cases of `C33_launched`: one continuation launched, one still to be launched by the activation of set_value. -/
example : ∃ s : DSt, SR (tableApp demoLaunch) () 1 s ∧ SEv.attached 0 0 1 ∈ s.data.sd.slog ∧ SEv.attached 0 0 2 ∈ s.data.sd.slog ∧
    (s.data.sd.st 0).status ≠ .notSet ∧ launchCount s.data.sd.slog 1 = 1 ∧ launchCount s.data.sd.slog 2 = 0 := by
  obtain ⟨s, h1, h2⟩ := swit (l := demoLaunch) (ls := go 0 10 ++ go 1 6 ++ go 0 20) (hnd := fun _ => none)
    (fun s => (decide (SEv.attached 0 0 1 ∈ s.data.sd.slog), decide (SEv.attached 0 0 2 ∈ s.data.sd.slog), decide ((s.data.sd.st 0).status ≠ .notSet),
      launchCount s.data.sd.slog 1, launchCount s.data.sd.slog 2)) (b := (true, true, true, 1, 0)) (by decide +kernel)
  simp only [Prod.mk.injEq, decide_eq_true_eq] at h2
  exact ⟨s, h1, h2⟩

/-- An activation of set_value that launches two continuations (`C33_set`). -/
example : ∃ s0 n s s' : _, SR (tableApp demoLaunch) () 1 s0 ∧ s0.stk 0 = .client (.svIn 0 (.val (.nat 7))) :: [.client (.app 8)] ∧
    Frag (client (tableApp demoLaunch)) 0 [.client (.app 8)] s0 n s ∧ step (client (tableApp demoLaunch)) s (.th 0 .go) = some s' ∧
    (decide (s'.stk 0 = [.client (.app 8)]), (s'.thr 0).exc, decide (SEv.attached 0 0 1 ∈ s0.data.sd.slog)) = (true, none, true) :=
  sfragWit (l := demoLaunch) (ls1 := go 0 10 ++ go 1 6 ++ go 0 10) (ls2 := go 0 32) (hnd := fun _ => none)
    (obs := fun s0 _ _ s' => (decide (s'.stk 0 = [.client (.app 8)]), (s'.thr 0).exc, decide (SEv.attached 0 0 1 ∈ s0.data.sd.slog))) (by decide +kernel)

/-- `C34_place`: one continuation ran inline, one out of the queue of thread 1. -/
example : ∃ s : DSt, SR (tableApp demoLaunch) () 1 s ∧ SEv.bodyStart 0 2 ∈ s.data.sd.slog ∧ (s.data.sd.st 2).owner = .pkg ∧
    SEv.bodyStart 1 1 ∈ s.data.sd.slog ∧ (s.data.sd.st 1).owner = .pkg ∧ SEv.launched 0 1 2 false 1 ∈ s.data.sd.slog := by
  obtain ⟨s, h1, h2⟩ := swit (l := demoLaunch) (ls := go 0 10 ++ go 1 6 ++ go 0 65 ++ go 1 5) (hnd := fun _ => none)
    (fun s => (decide (SEv.bodyStart 0 2 ∈ s.data.sd.slog), (s.data.sd.st 2).owner,
      decide (SEv.bodyStart 1 1 ∈ s.data.sd.slog), (s.data.sd.st 1).owner, decide (SEv.launched 0 1 2 false 1 ∈ s.data.sd.slog)))
    (b := (true, .pkg, true, .pkg, true)) (by decide +kernel)
  simp only [Prod.mk.injEq, decide_eq_true_eq] at h2
  exact ⟨s, h1, h2⟩

/-- `C34_launch`, `C34_then`: a step of `launch` that queues, and one that runs inline; a call of then. -/
example : ∃ s : DSt, SR (tableApp demoLaunch) () 1 s ∧ s.stk 0 = [.client (.laIn (.sr 0 [] [⟨0, false, 2, 20⟩]) ⟨2, false, 1, 20⟩), .client (.app 8)] :=
  swit (l := demoLaunch) (ls := go 0 10 ++ go 1 6 ++ go 0 17) (hnd := fun _ => none) (fun s => s.stk 0) (by decide +kernel)
example : ∃ s : DSt, SR (tableApp demoLaunch) () 1 s ∧ s.stk 0 = [.client (.laIn (.sr 0 [] []) ⟨0, false, 2, 20⟩), .client (.app 8)] :=
  swit (l := demoLaunch) (ls := go 0 10 ++ go 1 6 ++ go 0 23) (hnd := fun _ => none) (fun s => s.stk 0) (by decide +kernel)
example : ∃ s : DSt, SR (tableApp demoLaunch) () 1 s ∧ s.stk 0 = .client (SApi.futThen (some 0) 2 false false 20).entry :: [.client (.app 6)] :=
  swit (l := demoLaunch) (ls := go 0 10 ++ go 1 6 ++ go 0 1) (hnd := fun _ => none) (fun s => s.stk 0) (by decide +kernel)

/-- `C34_runs`, `C34_logged`: the step that calls the function of the second continuation. -/
example : ∃ s s' : DSt, SR (tableApp demoLaunch) () 1 s ∧ step (client (tableApp demoLaunch)) s (.th 0 .go) = some s' ∧
    (decide (.bodyStart 0 2 ∈ s'.data.sd.slog), decide (.bodyStart 0 2 ∈ s.data.sd.slog),
      decide (s.stk 0 = [.client (.ftRun 2 20), .client (.laInl (.sr 0 [] []) ⟨0, false, 2, 20⟩), .client (.app 8)])) = (true, false, true) :=
  sstepWit (l := demoLaunch) (ls := go 0 10 ++ go 1 6 ++ go 0 24) (hnd := fun _ => none)
    (fun s s' => (decide (.bodyStart 0 2 ∈ s'.data.sd.slog), decide (.bodyStart 0 2 ∈ s.data.sd.slog),
      decide (s.stk 0 = [.client (.ftRun 2 20), .client (.laInl (.sr 0 [] []) ⟨0, false, 2, 20⟩), .client (.app 8)]))) (by decide +kernel)

end Itc
