import Verif.Pool.Cases
import Verif.Sync.Call
import Verif.Sync.ALock
import Verif.Sync.AMem
import Verif.Sync.ATy

/-!
# Thread pool: instances of the generic arguments (proof infrastructure, no claims)
-/
namespace Itc
namespace Pool
open Core Sync
section
variable {α φ δ χ : Type}

theorem gd_inj {i j : Nat} (h : gd i = gd j) : i = j := by unfold gd at h; omega

/-! ## Steps of user code -/

theorem mapP_ok {F : Nat → PFrame α φ → Prop} {L : PTask α → Prop} (h1 : ∀ t g, F t (.usr g)) (h2 : ∀ a, L (.usr a)) (a : Api α φ) :
    ApiOK F L (mapP a) := by
  cases a <;> simp only [mapP, ApiOK] <;> first | trivial | exact h2 _ | skip
  · intro f hf u
    simp only [Option.mem_def, Option.map_eq_some_iff] at hf
    obtain ⟨g, -, rfl⟩ := hf
    exact h1 _ _
  · exact fun u => h1 _ _

/-- Forms of an action of user code. -/
inductive LP : SAct (PTask α) (PFrame α φ) → Prop
  | goto (f : φ) : LP (.goto (.usr f))
  | push (f k : φ) : LP (.push (.usr f) (.usr k))
  | core (b : Api α φ) (k : φ) : LP (.core (mapP b) (.usr k))
  | sync (b : SApi α) (b' : SApi (PTask α)) (k : φ) : mapS b = some b' → LP (.sync b' (.usr k))
  | pool (b : PApi α) (k : φ) : LP (.push b.entry (.usr k))
  | ret (v : Val) : LP (.ret v)
  | throw (e : Exn) : LP (.throw e)
  | term : LP .terminate

theorem liftP_cases (a : PAct α φ) : LP (liftP a) := by
  cases a <;> simp only [liftP]
  · exact .goto _
  · exact .push _ _
  · exact .core _ _
  · split
    · exact .sync _ _ _ ‹_›
    · exact .term
  · exact .pool _ _
  · exact .ret _
  · exact .throw _
  · exact .term

/-- Code that threads start with. -/
def zP : PFrame α φ → Prop
  | .usr _ => True
  | .wkIn => True
  | .wkLoop => True
  | .wkEnd => True
  | _ => False

theorem code_z {U : PApp α φ δ χ} {F : PFrame α φ → Prop} (h1 : ∀ g, F (.usr g)) (h2 : F .wkIn) {v ad f rv ch ad' a k}
    (hs : (poolApp U).step v ad f rv ch = some (ad', .core a k)) : ApiOK (fun _ => F) (fun _ => True) a := by
  generalize hx : (SAct.core a k : SAct (PTask α) (PFrame α φ)) = x at hs
  cases pool_pc hs with
  | usr g ch u wa hU =>
    have hl := liftP_cases wa
    clear hs hU
    rw [← hx] at hl
    generalize hy : (SAct.core a k : SAct (PTask α) (PFrame α φ)) = y at hl
    cases hl <;> first | (cases hy; done) | skip
    cases hy
    exact mapP_ok (fun _ => h1) (fun _ => trivial) _
  | ck => cases hx
  | ps f d' a' hf hb hP =>
    cases hP <;> first | (cases hx; done) | (cases hx; trivial) | (cases hx; exact fun _ => h2)

theorem z_step {U : PApp α φ δ χ} {v ad f rv ch ad' sa k} (hs : (poolApp U).step v ad f rv ch = some (ad', sa)) (hz : zP f)
    (hk : SAct.cont sa = some k) : zP k := by
  cases pool_pc hs with
  | usr g ch u wa hU =>
    have hl := liftP_cases wa
    clear hs hU
    generalize liftP wa = y at hl hk
    cases hl <;> simp only [SAct.cont, Option.some.injEq, reduceCtorEq] at hk <;>
      first | (subst hk; trivial) | exact hk.elim
  | ck => exact hz.elim
  | ps f d' a' hf hb hP => cases hP <;> first | exact hz.elim | (simp only [SAct.cont, Option.some.injEq, reduceCtorEq] at hk; subst hk; trivial) | (cases hk; done)

/-! ## Accounts -/

/-- An account over the pools. -/
structure PL (α φ δ : Type) where
  o : Nat
  u : Nat
  ou : o + u = 1
  w : PTask α → Nat
  g : PFrame α φ → Nat
  out : PData α δ → Nat
  inn : PData α δ → Nat
  cl : Nat → Nat := fun _ => 0
  fr : Nat → Nat := fun _ => 0
  w_usr : ∀ a, w (.usr a) = 0
  g_z : ∀ f, zP f → g f = 0
  g_entry : ∀ a : PApi α, g a.entry = 0
  out_u : ∀ d u, out { d with u := u } = out d
  inn_u : ∀ d u, inn { d with u := u } = inn d
  start : ∀ u, out { u := u } ≤ inn { u := u }

namespace PL
variable (L : PL α φ δ)

def aw : AW (PTask α) (PFrame α φ) (PData α δ) where
  o := L.o
  u := L.u
  ou := L.ou
  w := L.w
  g := L.g
  out := L.out
  inn := L.inn
  cl := L.cl
  fr := L.fr

theorem mapP_0 (a : Api α φ) : L.aw.api (mapP a) = 0 := by cases a <;> first | rfl | exact L.w_usr _

theorem mapS_0 {a : SApi α} {b : SApi (PTask α)} (h : mapS a = some b) : L.aw.sapi b = 0 := by
  cases a <;> simp only [mapS, Option.some.injEq, reduceCtorEq] at h <;> subst h <;> first | rfl | exact L.w_usr _ | skip
  rename_i p _ _ _ _
  cases p <;> first | rfl | exact L.w_usr _

structure Ok (U : PApp α φ δ χ) (u0 : δ) (f0 : φ) : Prop where
  runI : ∀ p a, L.g (.inRun p a) ≤ L.u * L.w (.inner p a)
  runC : ∀ x, L.g (.ckIn x) ≤ L.u * L.w (.check x)
  desI : ∀ p a, L.g (.inDtor p a) ≤ L.o * L.w (.inner p a)
  desC : ∀ x, L.g .ckDtor ≤ L.o * L.w (.check x)
  throw : ∀ {f e f'}, pthrow f e = some f' → L.g f' ≤ L.g f
  step : ∀ {s : PSt α φ δ} {t f rest ad' sa}, PR U u0 f0 s → (s.thr t).exc = none → s.stk t = .client (.app f) :: rest → (∀ g, f ≠ .usr g) →
    PS (s.view t) s.data.ad (s.thr t).rv f ad' sa → L.aw.sa f sa + L.out ad' + L.inn s.data.ad ≤ L.g f + L.out s.data.ad + L.inn ad'
  ck : ∀ {s : PSt α φ δ} {t x rest ad' id c}, PR U u0 f0 s → (s.thr t).exc = none → s.stk t = .client (.app (.ckBody x)) :: rest →
    PK t s.data.ad x.i x.L ad' id c → L.g (.ckUnl x id c) + L.out (ad'.close x) + L.inn s.data.ad ≤ L.g (.ckBody x) + L.out s.data.ad + L.inn (ad'.close x)

variable {L}

theorem g_usr (f : φ) : L.g (.usr f) = 0 := L.g_z _ trivial

theorem usr_sa (f : φ) (a : PAct α φ) : L.aw.sa (.usr f) (liftP a) = 0 := by
  have h : ∀ f, L.aw.g (.usr f) = 0 := L.g_usr
  have hl := liftP_cases a
  generalize liftP a = y at hl
  cases hl <;> simp only [AW.sa, mapP_0, h]
  · rename_i h; simp [L.mapS_0 h]
  · rename_i b k; exact L.g_entry b

def Ok.al {U : PApp α φ δ χ} {u0 : δ} {f0 : φ} (h : L.Ok U u0 f0) : AL (poolApp U) { u := u0 } (.usr f0) where
  toAW := L.aw
  z := zP
  z_g := L.g_z _
  z_0 := trivial
  z_step := z_step
  z_throw := by
    rintro f e f' hf hz
    rcases pool_throw hf with ⟨g, g', h1, h2⟩ | ⟨i, l, c, K, rfl, -⟩ | ⟨i, o, K, rfl, -⟩ | ⟨i, o, l, K, rfl, -⟩
    · subst h2; trivial
    all_goals exact hz.elim
  z_code := code_z (fun _ => trivial) trivial
  run a := by
    cases a with
    | usr a => show L.g (.usr _) ≤ _; rw [L.g_usr]; exact Nat.zero_le _
    | inner p a => exact h.runI p a
    | check x => exact h.runC x
  destroy a := by
    cases a with
    | usr a => show L.g (.usr _) ≤ _; rw [L.g_usr]; exact Nat.zero_le _
    | inner p a => exact h.desI p a
    | check x => exact h.desC x
  throw := by
    intro f e f' hf
    by_cases hg : ∃ g, f = .usr g
    · obtain ⟨g, rfl⟩ := hg
      rcases pool_throw hf with ⟨g, g', h1, h2⟩ | ⟨i, l, c, K, h1, -⟩ | ⟨i, o, K, h1, -⟩ | ⟨i, o, l, K, h1, -⟩
      · rw [h2]; show L.g (.usr _) ≤ _; rw [L.g_usr]; exact Nat.zero_le _
      all_goals cases h1
    · refine h.throw (f := f) (e := e) ?_
      cases f <;> first | exact absurd ⟨_, rfl⟩ hg | exact hf
  app := by
    intro s t ch f rest ad' sa hj he hst hs
    cases pool_pc hs with
    | usr g ch u wa hU =>
      rw [usr_sa]
      have h1 : L.g (.usr g) = 0 := L.g_usr g
      have h2 := L.out_u s.data.ad u
      have h3 := L.inn_u s.data.ad u
      simp only [aw]; omega
    | ck x d' id c hP => exact h.ck hj he hst hP
    | ps f d' a hf hb hP => exact h.step hj he hst hf hP

end PL

/-! ## The mutex of a pool -/

/-- The call that a frame waits for, if it takes one step. -/
def oneE : PFrame α φ → Option (SApi (PTask α))
  | .scTask k b _ _ _ => some (.package k b)
  | .scJob k _ _ _ _ _ => some (.package k true)
  | .ajIn i _ _ _ => some (.lock (gd i))
  | .cpBody i _ _ => some (.lock (gd i))
  | .clIn i _ _ => some (.lock (gd i))
  | .caIn i _ => some (.lock (gd i))
  | .diIn i _ => some (.lock (gd i))
  | .wtBody i _ => some (.lock (gd i))
  | .waBody i => some (.lock (gd i))
  | .cnBody i => some (.lock (gd i))
  | .ckBody x => some (.lock (gd x.i))
  | _ => none

theorem oneE_entry (a : PApi α) : oneE (a.entry : PFrame α φ) = none := by cases a <;> rfl

theorem oneE_throw {U : PApp α φ δ χ} {f f' e} (h : (poolApp U).onThrow f e = some f') : oneE f' = none := by
  rcases pool_throw h with ⟨g, g', -, rfl⟩ | ⟨i, l, c, K, -, rfl⟩ | ⟨i, o, K, -, rfl⟩ | ⟨i, o, l, K, -, rfl⟩ <;> rfl

/-- What is known about the results. -/
def oneR (d : SData (PTask α)) : SApi (PTask α) → Val → Prop
  | .package k _, v => ∃ p, v = .nat p ∧ p < d.nst ∧ (d.st p).home = k ∧ (d.st p).owner = .ext
  | _, _ => True

def pk (U : PApp α φ δ χ) (u0 : δ) (f0 : φ) : AK (poolApp U) { u := u0 } (.usr f0) where
  E := oneE
  R := oneR
  mono {d d' a v} he h := by
    cases a <;> first | trivial | skip
    obtain ⟨p, h1, h2, h3, h4⟩ := h
    exact ⟨p, h1, lt_mono he h2, (he.home h2).trans h3, (he.owner h2).trans h4⟩
  one {k a} h := by cases k <;> simp only [oneE, Option.some.injEq, reduceCtorEq] at h <;> subst h <;> trivial
  e0 := rfl
  run a := by cases a <;> exact ⟨rfl, rfl⟩
  throw := oneE_throw
  code := code_z (F := fun g => oneE g = none) (fun _ => rfl) rfl
  goto {v ad f rv ch ad' g} hs := by
    generalize hx : (SAct.goto g : SAct (PTask α) (PFrame α φ)) = x at hs
    cases pool_pc hs with
    | usr g ch u wa hU =>
      have hl := liftP_cases wa
      clear hs hU
      generalize liftP wa = y at hl hx
      cases hl <;> first | (cases hx; done) | (cases hx; rfl)
    | ck => cases hx; rfl
    | ps f d' a' hf hb hP => cases hP <;> first | (cases hx; done) | (cases hx; rfl)
  push {v ad f rv ch ad' g k} hs := by
    generalize hx : (SAct.push g k : SAct (PTask α) (PFrame α φ)) = x at hs
    cases pool_pc hs with
    | usr g ch u wa hU =>
      have hl := liftP_cases wa
      clear hs hU
      generalize liftP wa = y at hl hx
      cases hl <;> first | (cases hx; done) | (cases hx; exact ⟨rfl, rfl⟩) | skip
      cases hx; exact ⟨oneE_entry _, rfl⟩
    | ck => cases hx
    | ps f d' a' hf hb hP => cases hP <;> first | (cases hx; done)
  core {v ad f rv ch ad' a k} hs := by
    generalize hx : (SAct.core a k : SAct (PTask α) (PFrame α φ)) = x at hs
    cases pool_pc hs with
    | usr g ch u wa hU =>
      have hl := liftP_cases wa
      clear hs hU
      generalize liftP wa = y at hl hx
      cases hl <;> first | (cases hx; done) | (cases hx; rfl)
    | ck => cases hx
    | ps f d' a' hf hb hP => cases hP <;> first | (cases hx; done) | (cases hx; rfl)
  sync {v ad f rv ch ad' a k b} hs hk := by
    generalize hx : (SAct.sync a k : SAct (PTask α) (PFrame α φ)) = x at hs
    cases pool_pc hs with
    | usr g ch u wa hU =>
      have hl := liftP_cases wa
      clear hs hU
      generalize liftP wa = y at hl hx
      cases hl <;> first | (cases hx; done) | (cases hx; cases hk)
    | ck => cases hx
    | ps f d' a' hf hb hP => cases hP <;> first | (cases hx; done) | (cases hx; cases hk; done) | (cases hx; cases hk; rfl)
  ret {s t a k rest d' v} hr hst hk hS := by
    cases a <;> first | trivial | skip
    generalize hx : (Act.ret v : Act (STask (PTask α)) (SFrame (PTask α) (PFrame α φ))) = x at hS
    simp only [SApi.entry] at hS
    cases hS
    cases hx
    refine ⟨_, rfl, ?_, ?_, ?_⟩ <;> simp [SData.mkState]

end
end Pool
end Itc
