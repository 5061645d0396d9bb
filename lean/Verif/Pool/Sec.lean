import Verif.Pool.Base

/-!
# Thread pool: critical sections (proof infrastructure, no claims)
-/
namespace Itc
namespace Pool
open Core Sync
section
variable {α φ δ χ : Type}

/-- The account of nothing. -/
def nil0 : PL α φ δ where
  o := 0
  u := 1
  ou := rfl
  w _ := 0
  g _ := 0
  out _ := 0
  inn _ := 0
  w_usr _ := rfl
  g_z _ _ := rfl
  g_entry _ := rfl
  out_u _ _ := rfl
  inn_u _ _ := rfl
  start _ := Nat.le_refl _

theorem nil0_ok (U : PApp α φ δ χ) (u0 : δ) (f0 : φ) : (nil0 : PL α φ δ).Ok U u0 f0 where
  runI _ _ := Nat.zero_le _
  runC _ := Nat.zero_le _
  desI _ _ := Nat.zero_le _
  desC _ := Nat.zero_le _
  throw _ := Nat.zero_le _
  step {s t f rest ad' sa} hr he hst hf hP := by
    have : (nil0 : PL α φ δ).aw.sa f sa = 0 := by
      have h1 : ∀ a, (nil0 : PL α φ δ).aw.api a = 0 := by intro a; cases a <;> rfl
      have h2 : ∀ a, (nil0 : PL α φ δ).aw.sapi a = 0 := by intro a; cases a <;> first | rfl | (rename_i p _ _ _ _; cases p <;> rfl)
      cases sa <;> simp only [AW.sa, h1, h2] <;> rfl
    rw [this]; exact Nat.le_refl _
  ck _ _ _ _ := Nat.le_refl _

/-- The pool whose mutex a frame holds; true: the frame waits for the mutex. -/
def secF : PFrame α φ → Option (Nat × Bool)
  | .ajIn i _ _ _ => some (i, true)
  | .cpBody i _ _ => some (i, true)
  | .clIn i _ _ => some (i, true)
  | .caIn i _ => some (i, true)
  | .diIn i _ => some (i, true)
  | .wtBody i _ => some (i, true)
  | .waBody i => some (i, true)
  | .cnBody i => some (i, true)
  | .ckBody x => some (x.i, true)
  | .nw i _ _ _ => some (i, false)
  | .nwThr i _ => some (i, false)
  | .clThr i _ => some (i, false)
  | .unl i _ => some (i, false)
  | .clUnl i _ _ => some (i, false)
  | .caLoop i _ _ _ => some (i, false)
  | .ckUnl x _ _ => some (x.i, false)
  | _ => none

def secH (i : Nat) (f : PFrame α φ) : Nat := match secF f with | some (j, _) => if j = i then 1 else 0 | none => 0
def secE (i : Nat) (f : PFrame α φ) : Bool := match secF f with | some (j, true) => decide (j = i) | _ => false

theorem mapS_lkw {a : SApi α} {b : SApi (PTask α)} (h : mapS a = some b) (i : Nat) : lkw (gd i) (b.entry : SFrame (PTask α) (PFrame α φ)) = 0 := by
  have h1 : ∀ n, ¬ 2 * n = gd i := by intro n; unfold gd; omega
  cases a <;> simp only [mapS, Option.some.injEq, reduceCtorEq] at h <;> subst h <;> simp [SApi.entry, lkw, h1]

def sec (U : PApp α φ δ χ) (u0 : δ) (f0 : φ) (i : Nat) : ALk (pk U u0 f0) (nil0_ok U u0 f0).al where
  n := gd i
  H := secH i
  e := secE i
  e_lock {f} h := by
    cases f <;> simp [secE, secF] at h <;> subst h <;> rfl
  e_le {f} h := by unfold secH; split <;> (try split) <;> omega
  z {f} h := by cases f <;> first | rfl | exact h.elim
  run a := by cases a <;> exact ⟨rfl, rfl⟩
  throw {f x f'} h := by
    rcases pool_throw h with ⟨g, g', -, rfl⟩ | ⟨j, l, c, K, rfl, rfl⟩ | ⟨j, o, K, rfl, rfl⟩ | ⟨j, o, l, K, rfl, rfl⟩
    · exact Nat.zero_le _
    all_goals (simp only [secH, secE, secF]; simp)
  app {v ad f rv ch ad' sa} hs := by
    cases pool_pc hs with
    | usr g ch u wa hU =>
      have hl := liftP_cases wa
      clear hs hU
      generalize liftP wa = y at hl
      cases hl <;> simp only [secH, secE, secF] <;> first | exact Nat.le_refl _ | skip
      · rename_i h; simp [mapS_lkw h]
      · rename_i b k; cases b <;> exact Nat.le_refl _
    | ck => simp [secH, secE, secF]
    | ps f d' a hf hb hP =>
      cases hP <;> simp only [secH, secE, secF, lkw, SApi.entry] <;>
        first
        | exact Nat.zero_le _
        | exact Nat.le_refl _
        | (simp; done)
        | (simp [gd]; done)
        | grind [gd]

theorem sec_excl {U : PApp α φ δ χ} {u0 : δ} {f0 : φ} {s : PSt α φ δ} (h : PR U u0 f0 s) {t u i : Nat} {b : Bool} {f g : PFrame α φ}
    {rest : List (Fr (PTask α) (PFrame α φ))} (hst : s.stk t = .client (.app f) :: rest) (he : (s.thr t).exc = none) (hf : secF f = some (i, b))
    (hg : secF g = some (i, false)) (hm : .client (.app g) ∈ s.stk u) (hmt : u = t → .client (.app g) ∈ rest) : False :=
  (sec U u0 f0 i).excl h hst he (by show 1 ≤ secH i f; simp [secH, hf]) (by show 1 ≤ secH i g; simp [secH, hg])
    (by show secE i g = false; simp [secE, hg]) hm hmt

end
end Pool
end Itc
