import Verif.Sync.ARet
import Verif.Sync.ALin
import Verif.Sync.Cont

/-!
# Critical sections of a `std::mutex` of the application (proof infrastructure, no claims)

`ALk`: application frames that hold the mutex; at any time there is at most one.
-/
namespace Itc
namespace Sync
open Core
section
variable {α φ δ χ : Type} {A : App α φ δ χ} {ad0 : δ} {f0 : φ}

/-- Weight of a wait of a condition variable that uses the mutex. -/
def cvw (n m : Nat) : W → Nat
  | .cv _ m' => if m' = n then m else 0
  | _ => 0

def lkw (n : Nat) : SFrame α φ → Nat
  | .lkUn m => if m = n then 1 else 0
  | .cwIn _ m => if m = n then 2 else 0
  | .cfIn _ m _ => if m = n then 2 else 0
  | .swIn w => cvw n 2 w
  | .swLoop w _ _ => cvw n 2 w
  | .swChk w _ _ => cvw n 2 w
  | .swBefore w _ _ => cvw n 2 w
  | .swAfter w _ _ => cvw n 1 w
  | .swRem w _ _ _ => cvw n 2 w
  | .wfIn w _ => cvw n 2 w
  | .wfAdd w _ _ => cvw n 2 w
  | .wfLoop w _ _ _ _ _ => cvw n 2 w
  | .wfChk w _ _ _ _ _ => cvw n 2 w
  | .wfBefore w _ _ _ _ => cvw n 2 w
  | .wfAfter w _ _ _ => cvw n 1 w
  | .wfNow w _ _ _ _ => cvw n 2 w
  | .wfRem w _ _ _ _ => cvw n 2 w
  | _ => 0

def held (n : Nat) (d : SData α) : Nat := if d.lk (.user n) = none then 0 else 1

structure ALk (B : AK A ad0 f0) (Z : AL A ad0 f0) where
  n : Nat
  /-- Frames that hold the mutex. -/
  H : φ → Nat
  /-- Frames that wait for the mutex. -/
  e : φ → Bool
  e_lock : ∀ {f}, e f = true → B.E f = some (.lock n)
  e_le : ∀ {f}, e f = true → H f ≤ 1
  z : ∀ {f}, Z.z f → H f = 0
  run : ∀ a, H (A.run a) = 0 ∧ H (A.destroy a) = 0
  throw : ∀ {f x f'}, A.onThrow f x = some f' → H f' ≤ (if e f = true then 0 else H f)
  app : ∀ {v ad f rv ch ad' sa}, A.step v ad f rv ch = some (ad', sa) → (match sa with
    | .goto g => H g
    | .push g k => H g + (if e k = true then 0 else H k)
    | .core _ k => if e k = true then 0 else H k
    | .sync a k => lkw n (a.entry : SFrame α φ) + (if e k = true then 0 else H k)
    | _ => 0) ≤ H f

namespace ALk
variable {B : AK A ad0 f0} {Z : AL A ad0 f0} (K : ALk B Z)

def lo : SFrame α φ → Nat
  | .app k => if K.e k = true then 0 else K.H k
  | f => lkw K.n f

def hi : SFrame α φ → Nat
  | .app k => K.H k
  | f => lkw K.n f

def wts : Wts (STask α) (SFrame α φ) (Data α δ) where
  eq := false
  wt _ := 0
  wl _ := 0
  wr _ := 0
  lo := K.lo
  hi f _ := K.hi f
  hx := K.lo
  out _ := 0
  inn d := held K.n d.sd

theorem cw0 (f : CF (STask α) (SFrame α φ)) : f.lw K.wts = 0 ∧ f.tw K.wts = 0 := by
  have hz : ∀ l : List (STask α), lsum K.wts.wt l = 0 := by
    intro l
    induction l with
    | nil => rfl
    | cons a l ih => simp [ih]; rfl
  cases f <;> first | exact ⟨rfl, rfl⟩ | exact ⟨hz _, hz _⟩

theorem entry_hi (a : SApi α) : K.hi (a.entry : SFrame α φ) = lkw K.n (a.entry : SFrame α φ) := by cases a <;> rfl

theorem lo_hi (f : SFrame α φ) (h : ∀ k, f ≠ .app k) : K.lo f = K.hi f := by
  cases f <;> first | rfl | exact absurd rfl (h _)

theorem lo_le (f : SFrame α φ) : K.lo f ≤ K.hi f := by
  cases f <;> first | exact Nat.le_refl _ | skip
  simp only [lo, hi]; split <;> omega

def aw (f : SFrame α φ) : Act (STask α) (SFrame α φ) → Nat
  | .goto g => K.hi g
  | .push g k => K.hi g + K.lo k
  | .call _ k => K.lo k
  | .terminate => K.hi f
  | _ => 0

theorem held_le (n : Nat) (d : SData α) : held n d ≤ 1 := by unfold held; split <;> omega

theorem held_user {n m : Nat} {d : SData α} {o : Option Nat} :
    held n (d.setLk (.user m) o) = if m = n then (if o = none then 0 else 1) else held n d := by
  unfold held
  simp only [SData.setLk, set, Lk.user.injEq]
  by_cases h : m = n
  · subst h; simp
  · have : ¬ n = m := fun e => h e.symm
    simp [h, this]

theorem held_guard {n p : Nat} {d : SData α} {o : Option Nat} : held n (d.setLk (.guard p) o) = held n d := by
  unfold held
  simp [SData.setLk, set]

theorem held_none {n : Nat} {d : SData α} (h : d.lk (.user n) = none) : held n d = 0 := by simp [held, h]

set_option maxHeartbeats 4000000 in
theorem ss_acc {v : View} {d d' : SData α} {rv : Val} {f : SFrame α φ} {a : Act (STask α) (SFrame α φ)}
    (h : SS A.run A.destroy v d rv f d' a) : K.aw f a + held K.n d ≤ K.hi f + held K.n d' := by
  have hl := held_le K.n d
  cases h
  case lkIn m h =>
    simp only [aw, hi, lkw, held_user]
    by_cases hm : m = K.n
    · simp [hm]; omega
    · simp [hm]
  case lkUn m h =>
    simp only [aw, hi, lkw, held_user]
    by_cases hm : m = K.n
    · simp [hm]; omega
    · simp [hm]
  case swBefore w i k =>
    cases w <;> simp only [aw, hi, lo, lkw, cvw, W.lk, SData.relLk, held_user, held_guard] <;> try omega
    split <;> simp; omega
  case wfBefore w i k _ _ =>
    cases w <;> simp only [aw, hi, lo, lkw, cvw, W.lk, SData.relLk, held_user, held_guard] <;> try omega
    split <;> simp; omega
  case swAfterL w i k l h hf =>
    cases w <;> simp only [W.lk, Option.some.injEq, reduceCtorEq] at h <;> subst h <;>
      simp only [aw, hi, lo, lkw, cvw, held_user, held_guard] <;> try omega
    split
    · rename_i h; subst h; rw [held_none hf]; simp
    · omega
  case wfAfterL w i k e l h hf =>
    cases w <;> simp only [W.lk, Option.some.injEq, reduceCtorEq] at h <;> subst h <;>
      simp only [aw, hi, lo, lkw, cvw, held_user, held_guard] <;> try omega
    split
    · rename_i h; subst h; rw [held_none hf]; simp
    · omega
  case swAfterN w i k h => cases w <;> simp [W.lk] at h <;> simp [aw, hi, lo, lkw, cvw]
  case wfAfterN w i k e h => cases w <;> simp [W.lk] at h <;> simp [aw, hi, lo, lkw, cvw]
  case swIn w =>
    have : held K.n (d.addWaiter v.tid w.sem v.id).1 = held K.n d := by unfold SData.addWaiter; split <;> rfl
    simp only [aw, hi, lkw]; omega
  case wfAdd w _ _ =>
    have : held K.n (d.addWaiter v.tid w.sem v.id).1 = held K.n d := by unfold SData.addWaiter; split <;> rfl
    simp only [aw, hi, lkw]; omega
  case laRet KK c => cases KK <;> simp only [laNext] <;> split <;> simp [aw, hi, lo, lkw]
  case laEnd KK c => cases KK <;> simp [laNext, aw, hi, lo, lkw]
  case ftRun p a =>
    have : held K.n (d.ev (.bodyStart v.tid p)) = held K.n d := rfl
    simp only [aw, hi, lo, lkw, (K.run a).1]; omega
  case ftDtor p a => simp only [aw, hi, lo, lkw, (K.run a).2]; omega
  case svBad p r h =>
    have : held K.n ((d.setLk (.guard p) none).ev (.refusedSet v.tid p r)) = held K.n d := by
      show held K.n (d.setLk (.guard p) none) = _
      rw [held_guard]
    simp only [aw, hi, lo, lkw]; omega
  all_goals first
    | (simp only [aw, hi, lo, lkw, cvw, held_guard]; omega)
    | (show K.aw _ _ + held K.n d ≤ K.hi _ + held K.n d; simp only [aw, hi, lo, lkw, cvw]; omega)

def lin : Lin (client A) (SR A ad0 f0) B.stack where
  toWts := K.wts
  code := zf Z.z
  code_hi {f v} h := by
    cases f <;> first | exact False.elim h | skip
    exact K.z h
  code_ok h := Z.codes h
  run k v := by
    refine rel_le.2 ?_
    cases k <;> simp [wts, client, hi, lkw, (K.run _).1]
  destroy k v := by
    refine rel_le.2 ?_
    cases k <;> simp [wts, client, hi, lkw, (K.run _).2]
  destroyR k v := by
    refine rel_le.2 ?_
    cases k <;> simp [wts, client, hi, lkw, (K.run _).2]
  bot := by
    intro s t pre f hj hst
    have hb := Z.bot hj t
    rw [hst] at hb
    replace hb := botZ_app hb
    cases f with
    | client g =>
      cases g <;> first | exact False.elim hb | skip
      rename_i g
      refine ⟨_, rfl, ?_⟩
      have h1 := K.lo_le (.app g)
      have h2 : K.hi (.app g) = 0 := K.z hb
      show K.lo (.app g) = 0
      omega
    | core g => exact False.elim hb
  step := by
    intro s t ch f rest d' a hj he hst hs
    have hch := (B.stack.sound (fun _ h => h) hj).chain t
    rw [hst] at hch
    have hr : ∀ v, topHi K.wts v rest = losum K.wts rest ∨ (f = .lkIn K.n ∧ topHi K.wts v rest ≤ losum K.wts rest + 1) := by
      intro v
      cases rest with
      | nil => exact .inl rfl
      | cons l rest =>
        cases l with
        | core l => exact .inl (by simp [topHi, losum, Frame.hi, Frame.lo, K.cw0 l])
        | client l =>
          by_cases hl : ∃ k, l = .app k
          · obtain ⟨k, rfl⟩ := hl
            by_cases hek : K.e k = true
            · have h1 : B.adj (.client (.app k)) (.client f) := hch.1
              obtain h2 := Frame.client.inj (h1 _ (K.e_lock hek))
              have := K.e_le hek
              refine .inr ⟨h2, ?_⟩
              simp [topHi, losum, Frame.hi, Frame.lo, wts, hi, lo, hek]; omega
            · exact .inl (by simp [topHi, losum, Frame.hi, Frame.lo, wts, hi, lo, hek])
          · have := K.lo_hi l fun k hk => hl ⟨k, hk⟩
            exact .inl (by simp [topHi, losum, Frame.hi, Frame.lo, wts, this])
    have hx : topHx K.wts rest = losum K.wts rest := by
      cases rest with
      | nil => rfl
      | cons l rest =>
        cases l with
        | core l => simp [topHx, losum, Frame.hx, Frame.lo, K.cw0 l]
        | client l => rfl
    refine rel_le.2 ?_
    show _ + 0 + held K.n s.data.sd ≤ K.hi f + losum K.wts rest + 0 + held K.n d'.sd
    cases client_cs hs with
    | app g ad sa hA =>
      have h1 := K.app hA
      cases sa <;> simp only [liftAct, newW] at h1 ⊢
      · simp [wts, hi] at h1 ⊢; omega
      · simp [wts, hi, lo] at h1 ⊢; omega
      · rename_i a k
        rw [(K.cw0 _).2]
        simp [wts, hi, lo] at h1 ⊢; omega
      · rename_i a k
        have e : K.wts.hi a.entry (s.thr t).rv = lkw K.n (a.entry : SFrame α φ) := K.entry_hi a
        rw [e]
        simp [wts, hi, lo] at h1 ⊢; omega
      · rcases hr ‹_› with h | ⟨h, -⟩
        · rw [h]; simp
        · cases h
      · rw [hx]; simp
      · simp [wts, hi] at h1 ⊢
    | sync f sd a hS =>
      have h1 := K.ss_acc hS
      cases a with
      | goto g => simp only [aw, newW, wts] at h1 ⊢; omega
      | push g k => simp only [aw, newW, wts] at h1 ⊢; omega
      | call a k => simp only [aw, newW, (K.cw0 _).2] at h1 ⊢; simp only [wts] at h1 ⊢; omega
      | terminate => simp only [aw, newW, wts] at h1 ⊢; omega
      | throw e => simp only [aw, newW, hx] at h1 ⊢; omega
      | ret v =>
        simp only [aw, newW] at h1 ⊢
        rcases hr v with h | ⟨rfl, h⟩
        · rw [h]; omega
        · cases hS with
          | lkIn m hm =>
            have e1 : held K.n (s.data.sd.setLk (.user K.n) (some (s.view t).tid)) = 1 := by rw [held_user]; simp
            have e2 := held_none hm
            simp only [e1]; omega
  pop := by
    intro l f v h hv
    refine rel_le.2 ?_
    rw [(K.cw0 f).2]
    cases l with
    | core l => simp only [Frame.hi, Frame.lo, (K.cw0 l).1, (K.cw0 l).2]; omega
    | client l =>
      simp only [Frame.hi, Frame.lo]
      by_cases hl : ∃ k, l = .app k
      · obtain ⟨k, rfl⟩ := hl
        by_cases he : K.e k = true
        · cases h _ (K.e_lock he)
        · simp [wts, hi, lo, he]
      · have := K.lo_hi l fun k hk => hl ⟨k, hk⟩
        simp [wts, this]
  unw := by
    intro l f h hv
    refine rel_le.2 ?_
    cases l with
    | core l => simp only [Frame.hx, Frame.lo, (K.cw0 l).1, (K.cw0 l).2]; omega
    | client l => exact Nat.le_refl _
  catch' := by
    intro g e g' hn hg
    have hg : sThrow A.onThrow g e = some g' := hg
    refine rel_le.2 ?_
    cases g <;> first
      | (cases hg; done)
      | (have hg := Option.some.inj hg; subst hg; simp [wts, hi, lkw]; done)
      | skip
    simp only [sThrow, Option.map_eq_some_iff] at hg
    obtain ⟨x, hx, rfl⟩ := hg
    exact K.throw hx
  cpop := by
    intro g e l hn hg h
    refine rel_le.2 ?_
    cases l with
    | core l => simp only [Frame.hx, Frame.lo, (K.cw0 l).1, (K.cw0 l).2]; omega
    | client l => exact Nat.le_add_left _ _

theorem ok {s : SSt α φ δ} (h : SR A ad0 f0 s) : K.lin.Ok s := by
  refine K.lin.sound (fun _ h => h) (K.z Z.z_0) ?_ h
  exact rel_le.2 (Nat.zero_le _)

end ALk

/-- A frame on top that holds the mutex excludes other frames that hold it. -/
theorem ALk.excl {B : AK A ad0 f0} {Z : AL A ad0 f0} (K : ALk B Z) {s : SSt α φ δ} (h : SR A ad0 f0 s) {t u : Nat} {f g : φ} {rest : List (Fr α φ)}
    (hst : s.stk t = .client (.app f) :: rest) (he : (s.thr t).exc = none) (hf : 1 ≤ K.H f) (hg : 1 ≤ K.H g) (hge : K.e g = false)
    (hm : .client (.app g) ∈ s.stk u) (hmt : u = t → .client (.app g) ∈ rest) : False := by
  have ok := K.ok h
  have hl : ∀ (l : List (Fr α φ)), .client (.app g) ∈ l → 1 ≤ losum K.wts l := by
    intro l hl
    have h2 := lsum_mem (w := Frame.lo K.wts) hl
    have h3 : (Frame.client (.app g) : Fr α φ).lo K.wts = K.H g := by
      show K.lo (.app g) = _
      simp [ALk.lo, hge]
    have : K.H g ≤ losum K.wts l := h3 ▸ h2
    omega
  have ht : thw K.wts s t = K.H f + losum K.wts rest := by rw [stw_none he, hst]; rfl
  have hh := ALk.held_le (α := α) K.n s.data.sd
  by_cases hu : u = t
  · have h1 : thw K.wts s t + 0 ≤ held K.n s.data.sd := ok.le t
    have := hl rest (hmt hu)
    omega
  · have h1 : thw K.wts s t + thw K.wts s u + 0 ≤ held K.n s.data.sd := ok.le2 (Ne.symm hu)
    have h2 : 1 ≤ thw K.wts s u := by
      unfold thw stw
      split
      · have := hl _ hm
        cases hs : s.stk u with
        | nil => rw [hs] at hm; simp at hm
        | cons x r =>
          rw [hs] at this
          simp only [losum_cons] at this
          simp only [topHi]
          have : x.lo K.wts ≤ x.hi K.wts (s.thr u).rv := by
            cases x with
            | client f => exact K.lo_le f
            | core f => exact Nat.le_of_eq ((K.cw0 f).1.trans (K.cw0 f).2.symm)
          omega
      · have := hl _ hm
        cases hs : s.stk u with
        | nil => rw [hs] at hm; simp at hm
        | cons x r =>
          rw [hs] at this
          simp only [losum_cons] at this
          simp only [topHx]
          have : x.lo K.wts ≤ x.hx K.wts := by
            cases x with
            | client f => exact Nat.le_refl _
            | core f => cases f <;> first | exact Nat.le_refl _ | exact Nat.le_of_eq (K.cw0 _).1 | (simp [Frame.lo, Frame.hx, ALk.wts, CF.lw, CF.xw]; done)
          omega
    omega

end
end Sync
end Itc
