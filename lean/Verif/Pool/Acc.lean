import Verif.Pool.Jobs

/-!
# Thread pool: accounts (proof infrastructure, no claims)
-/
namespace Itc
namespace Pool
open Core Sync
section
variable {α φ δ χ : Type}

def b1 (p : Prop) [Decidable p] : Nat := if p then 1 else 0

/-- Both packaged tasks of a job. -/
def cs (x : Nat) (c : Call α) : Nat := b1 (c.u = x) + b1 (c.p = x)

def ePk (k : Nat) : PEv α → Nat
  | .packed k' _ => b1 (k' = k)
  | _ => 0

def ePx (x : Nat) : PEv α → Nat
  | .packed _ y => b1 (y = x)
  | _ => 0

def eSch (x : Nat) : PEv α → Nat
  | .sched _ _ _ c _ => cs x c
  | _ => 0

def eTk (x : Nat) : PEv α → Nat
  | .took _ _ _ _ c _ => cs x c
  | _ => 0

def eFr (x : Nat) : PEv α → Nat
  | .stopped _ _ _ c => cs x c
  | .discarded _ _ _ c => cs x c
  | .done _ _ _ c => cs x c
  | _ => 0

/-- Every tag is used once. -/
def aTag (k : Nat) : PL α φ δ where
  o := 1
  u := 0
  ou := rfl
  w _ := 0
  g
    | .scTask k' _ _ _ _ => b1 (k' = k)
    | .scJob k' _ _ _ _ _ => b1 (k' = k)
    | _ => 0
  out d := lsum (ePk k) d.plog
  inn d := b1 (k < d.ntag)
  w_usr _ := rfl
  g_z f h := by cases f <;> first | rfl | exact h.elim
  g_entry a := by cases a <;> rfl
  out_u _ _ := rfl
  inn_u _ _ := rfl
  start _ := Nat.zero_le _

/-- Every packaged task goes into one job. -/
def aSch (x : Nat) : PL α φ δ where
  o := 1
  u := 0
  ou := rfl
  w _ := 0
  g
    | .scJob _ _ _ _ u _ => b1 (u = x)
    | .ajIn _ _ _ c => cs x c
    | _ => 0
  out d := lsum (eSch x) d.plog
  inn d := lsum (ePx x) d.plog
  w_usr _ := rfl
  g_z f h := by cases f <;> first | rfl | exact h.elim
  g_entry a := by cases a <;> rfl
  out_u _ _ := rfl
  inn_u _ _ := rfl
  start _ := Nat.zero_le _

/-- A packaged task is called if a worker took the job. -/
def aCall (x : Nat) : PL α φ δ where
  o := 0
  u := 1
  ou := rfl
  w
    | .inner u _ => b1 (u = x)
    | _ => 0
  cl p := b1 (p = x)
  g
    | .ckUnl _ _ (some c) => cs x c
    | .ckGo _ _ (some c) => cs x c
    | .inRun u _ => b1 (u = x)
    | _ => 0
  out _ := 0
  inn d := lsum (eTk x) d.plog
  w_usr _ := rfl
  g_z f h := by cases f <;> first | rfl | exact h.elim
  g_entry a := by cases a <;> rfl
  out_u _ _ := rfl
  inn_u _ _ := rfl
  start _ := Nat.zero_le _

/-- A packaged task is destroyed if the job was stopped, discarded or executed. -/
def aFree (x : Nat) : PL α φ δ where
  o := 1
  u := 0
  ou := rfl
  w
    | .inner u _ => b1 (u = x)
    | _ => 0
  fr p := b1 (p = x)
  g
    | .clUnl _ _ (.job c) => cs x c
    | .clFin (.job c) => cs x c
    | .caLoop _ _ l _ => lsum (cs x) l
    | .inDtor u _ => b1 (u = x)
    | _ => 0
  out _ := 0
  inn d := lsum (eFr x) d.plog
  w_usr _ := rfl
  g_z f h := by cases f <;> first | rfl | exact h.elim
  g_entry a := by cases a <;> rfl
  out_u _ _ := rfl
  inn_u _ _ := rfl
  start _ := Nat.zero_le _

local macro "ps" L:ident : tactic => `(tactic| (
  simp only [AW.sa, AW.sapi, AW.api, PL.aw, $L:ident, PData.upd, PData.ev, PData.close, addH, insJob, chgJob, eraseJob, lsum_cons, lsum_append, ePk, ePx, eSch, eTk, eFr,
    Nat.add_zero, Nat.zero_add, Nat.mul_zero, Nat.le_refl, Nat.one_mul, Nat.zero_mul, Nat.mul_one]))

theorem sum_wait (e : PEv α → Nat) (he : ∀ t i k p x r, e (.waited t i k p x r) = 0) (v : View) (d : PData α δ) (i k : Nat) (dn : List Nat) :
    lsum e (waitEv v d i k dn).plog = lsum e d.plog ∧ (waitEv v d i k dn).ntag = d.ntag := by
  cases dn
  · exact ⟨rfl, rfl⟩
  · simp [waitEv, PData.ev, lsum_cons, he]

theorem sum_drop (e : PEv α → Nat) (w : Call α → Nat) (t i : Nat) (h1 : ∀ id c, e (.discarded t i id c) = w c) (h2 : ∀ id, e (.forgot t i id) = 0) :
    ∀ l : List (Job α), lsum e (dropEvs t i l) = lsum w (l.filterMap (·.call))
  | [] => rfl
  | j :: l => by
    have := sum_drop e w t i h1 h2 l
    cases hc : j.call <;> simp [dropEvs, hc, lsum_cons, this, h1, h2]

variable (U : PApp α φ δ χ) (u0 : δ) (f0 : φ)

theorem aTag_ok (k : Nat) : (aTag k : PL α φ δ).Ok U u0 f0 where
  runI _ _ := Nat.zero_le _
  runC _ := Nat.zero_le _
  desI _ _ := Nat.zero_le _
  desC _ := Nat.zero_le _
  throw {f e f'} h := by
    cases f <;> simp only [pthrow, Option.some.injEq, reduceCtorEq] at h <;> subst h <;> first | exact Nat.zero_le _ | exact Nat.le_refl _
  step {s t f rest ad' sa} hr he hst hf hP := by
    have ty := tyF hr (t := t) (f := f) (by rw [hst]; simp)
    have dr := sum_drop (α := α) (ePk k) (fun _ => 0) (s.view t).tid
    cases hP <;> (try subst_vars)
    case wtEnd i k dn => cases dn <;> simp only [waitEv] <;> ps aTag
    case wtGo i k dn p l => cases dn <;> simp only [waitEv] <;> ps aTag
    case caIn i K =>
      have := dr i (by intros; rfl) (by intros; rfl) (s.data.ad.imp i).jobs
      ps aTag
      have h0 : ∀ l : List (Call α), lsum (fun _ => 0) l = 0 := by intro l; simp [lsum]
      (try rw [h0] at this)
      omega
    all_goals ps aTag
    all_goals try simp only [b1, cs]
    all_goals grind
  ck {s t x rest ad' id c} hr he hst hP := by
    cases hP
    all_goals ps aTag

theorem aSch_ok (x : Nat) : (aSch x : PL α φ δ).Ok U u0 f0 where
  runI _ _ := Nat.zero_le _
  runC _ := Nat.zero_le _
  desI _ _ := Nat.zero_le _
  desC _ := Nat.zero_le _
  throw {f e f'} h := by
    cases f <;> simp only [pthrow, Option.some.injEq, reduceCtorEq] at h <;> subst h <;> first | exact Nat.zero_le _ | exact Nat.le_refl _
  step {s t f rest ad' sa} hr he hst hf hP := by
    have dr := sum_drop (α := α) (eSch x) (fun _ => 0) (s.view t).tid
    have dr2 := sum_drop (α := α) (ePx x) (fun _ => 0) (s.view t).tid
    cases hP <;> (try subst_vars)
    case wtEnd i k dn => cases dn <;> simp only [waitEv] <;> ps aSch
    case wtGo i k dn p l => cases dn <;> simp only [waitEv] <;> ps aSch
    case caIn i K =>
      have h1 := dr i (by intros; rfl) (by intros; rfl) (s.data.ad.imp i).jobs
      have h2 := dr2 i (by intros; rfl) (by intros; rfl) (s.data.ad.imp i).jobs
      ps aSch
      have h0 : ∀ l : List (Call α), lsum (fun _ => 0) l = 0 := by intro l; simp [lsum]
      rw [h0] at h1 h2
      omega
    all_goals ps aSch
    all_goals try simp only [b1, cs]
    all_goals grind
  ck {s t y rest ad' id c} hr he hst hP := by
    cases hP
    all_goals ps aSch

theorem aCall_ok (x : Nat) : (aCall x : PL α φ δ).Ok U u0 f0 where
  runI _ _ := by simp [aCall]
  runC _ := Nat.zero_le _
  desI _ _ := Nat.zero_le _
  desC _ := Nat.zero_le _
  throw {f e f'} h := by
    cases f <;> simp only [pthrow, Option.some.injEq, reduceCtorEq] at h <;> subst h <;> first | exact Nat.zero_le _ | exact Nat.le_refl _
  step {s t f rest ad' sa} hr he hst hf hP := by
    have ty := tyF hr (t := t) (f := f) (by rw [hst]; simp)
    have dr := sum_drop (α := α) (eTk x) (fun _ => 0) (s.view t).tid
    cases hP <;> (try subst_vars)
    case wtEnd i k dn => cases dn <;> simp only [waitEv] <;> ps aCall
    case wtGo i k dn p l => cases dn <;> simp only [waitEv] <;> ps aCall
    case caIn i K =>
      have := dr i (by intros; rfl) (by intros; rfl) (s.data.ad.imp i).jobs
      ps aCall
      have h0 : ∀ l : List (Call α), lsum (fun _ => 0) l = 0 := by intro l; simp [lsum]
      (try rw [h0] at this)
      omega
    all_goals ps aCall
    all_goals try simp only [b1, cs]
    all_goals grind
  ck {s t y rest ad' id c} hr he hst hP := by
    cases hP
    all_goals ps aCall

theorem aFree_ok (x : Nat) : (aFree x : PL α φ δ).Ok U u0 f0 where
  runI _ _ := Nat.zero_le _
  runC _ := Nat.zero_le _
  desI _ _ := by simp [aFree]
  desC _ := Nat.zero_le _
  throw {f e f'} h := by
    cases f <;> simp only [pthrow, Option.some.injEq, reduceCtorEq] at h <;> subst h <;> first | exact Nat.zero_le _ | exact Nat.le_refl _
  step {s t f rest ad' sa} hr he hst hf hP := by
    have ty := tyF hr (t := t) (f := f) (by rw [hst]; simp)
    have dr := sum_drop (α := α) (eFr x) (cs x) (s.view t).tid
    cases hP <;> (try subst_vars)
    case clDrop i id c j c' hj hc =>
      exfalso
      obtain ⟨h1, h2⟩ := findJob_mem hj
      obtain ⟨t', L, h, hm⟩ := ty.2 c rfl
      refine (((ji hr) i).call j h1).1 (by simp [hc]) ?_
      rw [h2]
      exact List.mem_filterMap.2 ⟨_, hm, by simp [PEv.takenId]⟩
    case wtEnd i k dn => cases dn <;> simp only [waitEv] <;> ps aFree
    case wtGo i k dn p l => cases dn <;> simp only [waitEv] <;> ps aFree
    case caIn i K =>
      have := dr i (by intros; rfl) (by intros; rfl) (s.data.ad.imp i).jobs
      ps aFree
      have h0 : ∀ l : List (Call α), lsum (fun _ => 0) l = 0 := by intro l; simp [lsum]
      (try rw [h0] at this)
      omega
    all_goals ps aFree
    all_goals try simp only [b1, cs]
    all_goals grind
  ck {s t y rest ad' id c} hr he hst hP := by
    cases hP
    all_goals ps aFree

end
end Pool
end Itc
