import Verif.Pool.Cut

/-!
# The results of schedule; one step of a pool function (proof infrastructure, no claims)
-/
namespace Itc
namespace Pool
open Core Sync
section
variable {α φ δ χ : Type} {U : PApp α φ δ χ} {u0 : δ} {f0 : φ} {s s' : PSt α φ δ}

/-- One step at a frame of the pool. -/
theorem pool_at (hr : PR U u0 f0 s) {t : Nat} {ch : Ch (PCh χ)} {f : PFrame α φ} {rest : List (Fr (PTask α) (PFrame α φ))}
    (htop : s.stk t = .client (.app f) :: rest) (hexc : (s.thr t).exc = none) (hs : Core.step (client (poolApp U)) s (.th t ch) = some s') :
    ∃ a ch', (poolApp U).step (s.view t) s.data.ad f (s.thr t).rv ch' = some (s'.data.ad, a) ∧ s'.data.sd = s.data.sd ∧ ActTo s s' t rest (liftAct a) := by
  have hok := stk_ok hr
  rcases step_cl hs with ⟨f, rest', d', a, hexc, hold, hstep, hdata, hact, -⟩ | ⟨f, rest', hexc, hold, -⟩ | ⟨e, he, -⟩ | ⟨e, f, k, rest', he, -⟩ |
    ⟨e, f, rest', he, -⟩ | ⟨e, g', g'', rest', he, -⟩ | ⟨e, g', rest', he, -⟩ | ⟨hold, -⟩
  · rw [htop] at hold
    cases hold
    cases client_cs hstep with
    | app g' ad' sa hA => exact ⟨sa, ch, by rw [hdata]; exact hA, by rw [hdata], hact⟩
    | sync f sd a hS => exact (SS.not_app hS).elim
  · rw [htop] at hold; cases hold
  · rw [hexc] at he; cases he
  · rw [hexc] at he; cases he
  · rw [hexc] at he; cases he
  · rw [hexc] at he; cases he
  · rw [hexc] at he; cases he
  · rw [htop] at hold; cases hold

/-! ## The ids that schedule returns -/

def eRt (i id : Nat) : PEv α → Nat
  | .returned _ j id' _ => b1 (j = i ∧ id' = id)
  | _ => 0

def eSi (i id : Nat) : PEv α → Nat
  | .sched _ j id' _ _ => b1 (j = i ∧ id' = id)
  | _ => 0

def kRt (i id j : Nat) : AK' → Nat
  | .sched _ _ id' => b1 (j = i ∧ id' = id)
  | .chg => 0

def aRet (i id : Nat) : PL α φ δ where
  o := 1
  u := 0
  ou := rfl
  w _ := 0
  g
    | .nw j _ _ K => kRt i id j K
    | .nwFin j K => kRt i id j K
    | _ => 0
  out d := lsum (eRt i id) d.plog
  inn d := lsum (eSi i id) d.plog
  w_usr _ := rfl
  g_z f h := by cases f <;> first | rfl | exact h.elim
  g_entry a := by cases a <;> rfl
  out_u _ _ := rfl
  inn_u _ _ := rfl
  start _ := Nat.zero_le _

local macro "ps" L:ident : tactic => `(tactic| (
  simp only [AW.sa, AW.sapi, AW.api, PL.aw, $L:ident, PData.upd, PData.ev, PData.close, addH, insJob, chgJob, eraseJob, lsum_cons, lsum_append, eRt, eSi, kRt,
    Nat.add_zero, Nat.zero_add, Nat.mul_zero, Nat.le_refl, Nat.one_mul, Nat.zero_mul, Nat.mul_one]))

theorem aRet_ok (U : PApp α φ δ χ) (u0 : δ) (f0 : φ) (i0 id0 : Nat) : (aRet i0 id0 : PL α φ δ).Ok U u0 f0 where
  runI _ _ := Nat.zero_le _
  runC _ := Nat.zero_le _
  desI _ _ := Nat.zero_le _
  desC _ := Nat.zero_le _
  throw {f e f'} h := by
    cases f <;> simp only [pthrow, Option.some.injEq, reduceCtorEq] at h <;> subst h <;> first | exact Nat.zero_le _ | exact Nat.le_refl _
  step {s t f rest ad' sa} hr he hst hf hP := by
    have dr := sum_drop (α := α) (eRt i0 id0) (fun _ => 0) (s.view t).tid
    have dr2 := sum_drop (α := α) (eSi i0 id0) (fun _ => 0) (s.view t).tid
    cases hP <;> (try subst_vars)
    case wtEnd i k dn => cases dn <;> simp only [waitEv] <;> ps aRet
    case wtGo i k dn p l => cases dn <;> simp only [waitEv] <;> ps aRet
    case caIn i K =>
      have h1 := dr i (by intros; rfl) (by intros; rfl) (s.data.ad.imp i).jobs
      have h2 := dr2 i (by intros; rfl) (by intros; rfl) (s.data.ad.imp i).jobs
      ps aRet
      have h0 : ∀ l : List (Call α), lsum (fun _ => 0) l = 0 := by intro l; simp [lsum]
      rw [h0] at h1 h2
      omega
    all_goals ps aRet
    all_goals try simp only [b1, cs]
    all_goals grind
  ck {s t y rest ad' id c} hr he hst hP := by
    cases hP
    all_goals ps aRet

end
end Pool
end Itc
