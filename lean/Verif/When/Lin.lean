import Verif.When.Ty0
import Verif.Sync.ALock
import Verif.Sync.AMem

/-!
# Accounts of when_all / when_any (proof infrastructure, no claims)
-/
namespace Itc
namespace When
open Core Sync
section
variable {α φ δ χ : Type}

/-- An account over contexts. -/
structure WL (φ : Type) where
  o : Nat
  u : Nat
  ou : o + u = 1
  w : Nat → Nat → Nat
  g : WFrame φ → Nat
  out : (Nat → Ctx) → Nat → Nat
  inn : (Nat → Ctx) → Nat → Nat
  g_usr : ∀ f, g (.usr f) = 0
  g_wIn : ∀ tup any l, g (.wIn tup any l) = 0
  start : ∀ x, out x 0 ≤ inn x 0

namespace WL
variable (L : WL φ)

def wt : WTask α → Nat
  | .usr _ => 0
  | .wk c i _ => L.w c i

def aw (α δ : Type) : AW (WTask α) (WFrame φ) (WData δ) where
  o := L.o
  u := L.u
  ou := L.ou
  w := L.wt
  g := L.g
  out d := L.out d.ctx d.nctx
  inn d := L.inn d.ctx d.nctx

theorem mapW_0 (a : Api α φ) : (L.aw α δ).api (mapW a) = 0 := by cases a <;> rfl

theorem mapS_0 (a : SApi α) : (L.aw α δ).sapi (mapS a) = 0 := by
  cases a <;> first | rfl | skip
  case futThen p _ _ _ _ => cases p <;> rfl

structure Ok (α δ : Type) : Prop where
  run : ∀ c i q, L.g (.kIn c i q) ≤ L.u * L.w c i
  destroy : ∀ c i q, L.g (.dIn c i q) ≤ L.o * L.w c i
  throw : ∀ {f e f'}, wthrow f e = some f' → L.g f' ≤ L.g f
  step : ∀ {v : View} {d d' : WData δ} {rv f} {a : SAct (WTask α) (WFrame φ)}, WS v d rv f d' a →
    (∀ c ∈ f.cx, c < d.nctx) → (L.aw α δ).sa f a + L.out d'.ctx d'.nctx + L.inn d.ctx d.nctx ≤ L.g f + L.out d.ctx d.nctx + L.inn d'.ctx d'.nctx

variable {L}

theorem usr_sa (f : φ) (a : WAct α φ) : (L.aw α δ).sa (.usr f) (liftW a) = 0 := by
  have h := L.g_usr
  cases a <;> simp only [liftW, AW.sa, L.mapW_0, L.mapS_0] <;> simp only [aw, h, L.g_wIn]

def Ok.al (h : L.Ok α δ) (U : WApp α φ δ χ) (u0 : δ) (f0 : φ) : AL (whenApp U) { u := u0 } (.usr f0) where
  toAW := L.aw α δ
  z f := ∃ g, f = .usr g
  z_g := by rintro f ⟨g, rfl⟩; exact L.g_usr g
  z_0 := ⟨_, rfl⟩
  z_step := by
    rintro v ad f rv ch ad' sa k hs ⟨g, rfl⟩ hk
    cases when_wc hs with
    | usr g u a hU => cases a <;> simp only [liftW, SAct.cont, Option.some.injEq, reduceCtorEq] at hk <;> exact ⟨_, hk.symm⟩
    | wh f d' a hf hW => exact absurd rfl (hf g)
  z_throw := by
    rintro f e f' hf ⟨g, rfl⟩
    rcases when_throw hf with ⟨g, g', h1, h2⟩ | h
    · exact ⟨_, h2⟩
    · cases h
  z_code := by
    intro v ad f rv ch ad' a k hs
    generalize hx : (SAct.core a k : SAct (WTask α) (WFrame φ)) = x at hs
    cases when_wc hs with
    | usr g u wa hU =>
      clear hs
      cases wa <;> simp only [liftW, SAct.core.injEq, reduceCtorEq] at hx
      obtain ⟨rfl, -⟩ := hx
      rename_i a' k'
      clear hU
      cases a' <;> simp only [mapW, ApiOK] <;> first | trivial | skip
      · intro f hf
        simp only [Option.mem_def, Option.map_eq_some_iff] at hf
        obtain ⟨g, hg, rfl⟩ := hf
        exact fun u => ⟨_, rfl⟩
      · exact fun u => ⟨_, rfl⟩
    | wh f d' a' hf hW =>
      cases hW <;> first | (cases hx; done) | skip
      all_goals (rename_i ha; rcases ha with ⟨-, rfl⟩ | rfl <;> cases hx)
  run a := by
    cases a with
    | usr a => show L.g (.usr _) ≤ _; rw [L.g_usr]; exact Nat.zero_le _
    | wk c i q => exact h.run c i q
  destroy a := by
    cases a with
    | usr a => show L.g (.usr _) ≤ _; rw [L.g_usr]; exact Nat.zero_le _
    | wk c i q => exact h.destroy c i q
  throw := by
    intro f e f' hf
    rcases when_throw hf with ⟨g, g', h1, h2⟩ | h'
    · rw [h2]; show L.g (.usr _) ≤ _; rw [L.g_usr]; exact Nat.zero_le _
    · exact h.throw h'
  app := by
    intro s t ch f rest ad' sa hj he hst hs
    cases when_wc hs with
    | usr g u wa hU =>
      rw [usr_sa]
      have : L.g (.usr g) = 0 := L.g_usr g
      simp only [aw]; omega
    | wh f d' a hf hW => exact h.step hW (fun c hc => cx_lt hj (hst ▸ List.mem_cons_self) hc)

end WL

def b1 (p : Prop) [Decidable p] : Nat := if p then 1 else 0

/-- The lambda for index `j` of context `c` is created at most once. -/
def lMade (φ : Type) (c j : Nat) : WL φ where
  o := 1
  u := 0
  ou := rfl
  w _ _ := 0
  g
    | .wGet c' _ => b1 (c' = c)
    | .wGot c' _ => b1 (c' = c)
    | .wLoop c' _ _ i _ => b1 (c' = c ∧ i ≤ j)
    | .wNext c' _ _ i _ => b1 (c' = c ∧ i + 1 ≤ j)
    | _ => 0
  out x n := if c < n then (x c).made.count j else 0
  inn _ n := if c < n then 1 else 0
  g_usr _ := rfl
  g_wIn _ _ _ := rfl
  start _ := by simp

/-- The lambda for index `j` of context `c` is destroyed at most once. -/
def lFree (φ : Type) (c j : Nat) : WL φ where
  o := 1
  u := 0
  ou := rfl
  w c' i := b1 (c' = c ∧ i = j)
  g
    | .dIn c' i _ => b1 (c' = c ∧ i = j)
    | _ => 0
  out x n := if c < n then (x c).freed.count j else 0
  inn x n := if c < n then (x c).made.count j else 0
  g_usr _ := rfl
  g_wIn _ _ _ := rfl
  start _ := by simp

/-- The lambda for index `j` of context `c` is run at most once. -/
def lRun (φ : Type) (c j : Nat) : WL φ where
  o := 0
  u := 1
  ou := rfl
  w c' i := b1 (c' = c ∧ i = j)
  g
    | .kIn c' i _ => b1 (c' = c ∧ i = j)
    | .kBody c' i _ => b1 (c' = c ∧ i = j)
    | _ => 0
  out x n := if c < n then (x c).done.count j else 0
  inn x n := if c < n then (x c).made.count j else 0
  g_usr _ := rfl
  g_wIn _ _ _ := rfl
  start _ := by simp

/-- The lambda for index `j` of context `c` ends at most once. -/
def lEnd (φ : Type) (c j : Nat) : WL φ where
  o := 1
  u := 0
  ou := rfl
  w _ _ := 0
  g
    | .kSet c' i => b1 (c' = c ∧ i = j)
    | .kAll c' i => b1 (c' = c ∧ i = j)
    | .kUnl c' i => b1 (c' = c ∧ i = j)
    | .kEnd c' i => b1 (c' = c ∧ i = j)
    | .kThr c' i _ => b1 (c' = c ∧ i = j)
    | _ => 0
  out x n := if c < n then (x c).ended.count j + (x c).failed.count j else 0
  inn x n := if c < n then (x c).done.count j else 0
  g_usr _ := rfl
  g_wIn _ _ _ := rfl
  start _ := by simp

/-- The activation of when_all / when_any that owns context `c`. -/
def lOwn (φ : Type) (c : Nat) : WL φ where
  o := 1
  u := 0
  ou := rfl
  w _ _ := 0
  g
    | .mkS c' => b1 (c' = c)
    | .mkG c' => b1 (c' = c)
    | .mkD c' => b1 (c' = c)
    | .wGet c' _ => b1 (c' = c)
    | .wGot c' _ => b1 (c' = c)
    | .wLoop c' _ _ _ _ => b1 (c' = c)
    | .wNext c' _ _ _ _ => b1 (c' = c)
    | .aIn c' _ => b1 (c' = c)
    | .aSet c' _ => b1 (c' = c)
    | .aUnl c' _ => b1 (c' = c)
    | .gGet c' => b1 (c' = c)
    | .gGot c' => b1 (c' = c)
    | .rel c' _ => b1 (c' = c)
    | _ => 0
  out x n := if c < n then (x c).rel else 0
  inn _ n := if c < n then 1 else 0
  g_usr _ := rfl
  g_wIn _ _ _ := rfl
  start _ := by simp

/-- `processed` and the inputs that are still to be processed. -/
def lProc (φ : Type) (c : Nat) : WL φ where
  o := 1
  u := 0
  ou := rfl
  w _ _ := 0
  g
    | .wGet c' l => b1 (c' = c) * l.length
    | .wGot c' l => b1 (c' = c) * l.length
    | .wLoop c' _ _ _ l => b1 (c' = c) * l.length
    | .wNext c' _ _ _ l => b1 (c' = c) * (l.length + 1)
    | _ => 0
  out x n := if c < n then (x c).processed else 0
  inn x n := if c < n then (x c).total else 0
  g_usr _ := rfl
  g_wIn _ _ _ := rfl
  start _ := by simp

/-- Reading a context after an update. -/
theorem ctx_set (x : Nat → Ctx) (c c' : Nat) (y : Ctx) : (set x c' y) c = if c = c' then y else x c := by
  by_cases h : c = c'
  · subst h; simp
  · simp [set_ne _ _ h, h]

local macro "ws" L:ident : tactic => `(tactic| (
  simp only [AW.sa, AW.sapi, WL.aw, WL.wt, newCtx, $L:ident, WData.upd, ctx_set, Nat.add_zero, Nat.zero_add, Nat.mul_zero, Nat.le_refl, Nat.one_mul, Nat.zero_mul, Nat.mul_one]))

theorem lMade_ok (c j : Nat) : (lMade φ c j).Ok α δ where
  run _ _ _ := Nat.zero_le _
  destroy _ _ _ := Nat.zero_le _
  throw {f e f'} h := by
    cases f <;> simp only [wthrow, Option.some.injEq, reduceCtorEq] at h <;> subst h <;> first | exact Nat.zero_le _ | exact Nat.le_refl _
  step {v d d' rv f a} h hc := by
    cases h
    case relRet c' p x hx ha => rcases ha with ⟨-, rfl⟩ | rfl <;> subst hx <;> ws lMade <;> grind [b1]
    case relThr c' p x hx ha => rcases ha with ⟨-, rfl⟩ | rfl <;> subst hx <;> ws lMade <;> grind [b1]
    case dIn c' i q x hx ha => rcases ha with ⟨-, rfl⟩ | rfl <;> subst hx <;> ws lMade <;> grind [b1, List.count_append, List.count_singleton]
    all_goals try subst_vars
    all_goals ws lMade
    all_goals try simp only [b1]
    all_goals grind [List.count_append, List.count_singleton]

theorem lFree_ok (c j : Nat) : (lFree φ c j).Ok α δ where
  run _ _ _ := Nat.zero_le _
  destroy _ _ _ := by simp [lFree]
  throw {f e f'} h := by
    cases f <;> simp only [wthrow, Option.some.injEq, reduceCtorEq] at h <;> subst h <;> first | exact Nat.zero_le _ | exact Nat.le_refl _
  step {v d d' rv f a} h hc := by
    cases h
    case relRet c' p x hx ha => rcases ha with ⟨-, rfl⟩ | rfl <;> subst hx <;> ws lFree <;> grind [b1]
    case relThr c' p x hx ha => rcases ha with ⟨-, rfl⟩ | rfl <;> subst hx <;> ws lFree <;> grind [b1]
    case dIn c' i q x hx ha => rcases ha with ⟨-, rfl⟩ | rfl <;> subst hx <;> ws lFree <;> grind [b1, List.count_append, List.count_singleton]
    case loop c' p id i q sh l x hx =>
      have := hc _ rfl
      subst hx; ws lFree
      by_cases h : c = c'
      · subst h
        simp only [b1, this, if_true, List.count_append, List.count_singleton, beq_iff_eq, true_and]; omega
      · have h' : c' ≠ c := fun x => h x.symm
        simp [b1, h, h']
    all_goals try subst_vars
    all_goals ws lFree
    all_goals try simp only [b1]
    all_goals grind [List.count_append, List.count_singleton]

theorem lRun_ok (c j : Nat) : (lRun φ c j).Ok α δ where
  run _ _ _ := by simp [lRun]
  destroy _ _ _ := Nat.zero_le _
  throw {f e f'} h := by
    cases f <;> simp only [wthrow, Option.some.injEq, reduceCtorEq] at h <;> subst h <;> first | exact Nat.zero_le _ | exact Nat.le_refl _
  step {v d d' rv f a} h hc := by
    cases h
    case relRet c' p x hx ha => rcases ha with ⟨-, rfl⟩ | rfl <;> subst hx <;> ws lRun <;> grind [b1]
    case relThr c' p x hx ha => rcases ha with ⟨-, rfl⟩ | rfl <;> subst hx <;> ws lRun <;> grind [b1]
    case dIn c' i q x hx ha => rcases ha with ⟨-, rfl⟩ | rfl <;> subst hx <;> ws lRun <;> grind [b1, List.count_append, List.count_singleton]
    case loop c' p id i q sh l x hx =>
      have := hc _ rfl
      subst hx; ws lRun
      by_cases h : c = c'
      · subst h
        simp only [b1, this, if_true, List.count_append, List.count_singleton, beq_iff_eq, true_and]; omega
      · have h' : c' ≠ c := fun x => h x.symm
        simp [b1, h, h']
    all_goals try subst_vars
    all_goals ws lRun
    all_goals try simp only [b1]
    all_goals grind [List.count_append, List.count_singleton]

theorem lEnd_ok (c j : Nat) : (lEnd φ c j).Ok α δ where
  run _ _ _ := Nat.zero_le _
  destroy _ _ _ := Nat.zero_le _
  throw {f e f'} h := by
    cases f <;> simp only [wthrow, Option.some.injEq, reduceCtorEq] at h <;> subst h <;> first | exact Nat.zero_le _ | exact Nat.le_refl _
  step {v d d' rv f a} h hc := by
    cases h
    case relRet c' p x hx ha => rcases ha with ⟨-, rfl⟩ | rfl <;> subst hx <;> ws lEnd <;> grind [b1]
    case relThr c' p x hx ha => rcases ha with ⟨-, rfl⟩ | rfl <;> subst hx <;> ws lEnd <;> grind [b1]
    case dIn c' i q x hx ha => rcases ha with ⟨-, rfl⟩ | rfl <;> subst hx <;> ws lEnd <;> grind [b1, List.count_append, List.count_singleton]
    all_goals try have hlt := hc _ rfl
    all_goals try subst_vars
    all_goals ws lEnd
    all_goals try simp only [b1]
    all_goals grind [List.count_append, List.count_singleton]

theorem lOwn_ok (c : Nat) : (lOwn φ c).Ok α δ where
  run _ _ _ := Nat.zero_le _
  destroy _ _ _ := Nat.zero_le _
  throw {f e f'} h := by
    cases f <;> simp only [wthrow, Option.some.injEq, reduceCtorEq] at h <;> subst h <;> first | exact Nat.zero_le _ | exact Nat.le_refl _
  step {v d d' rv f a} h hc := by
    cases h
    case relRet c' p x hx ha => rcases ha with ⟨-, rfl⟩ | rfl <;> subst hx <;> ws lOwn <;> grind [b1]
    case relThr c' p x hx ha => rcases ha with ⟨-, rfl⟩ | rfl <;> subst hx <;> ws lOwn <;> grind [b1]
    case dIn c' i q x hx ha => rcases ha with ⟨-, rfl⟩ | rfl <;> subst hx <;> ws lOwn <;> grind [b1, List.count_append, List.count_singleton]
    all_goals try subst_vars
    all_goals ws lOwn
    all_goals try simp only [b1]
    all_goals grind [List.count_append, List.count_singleton]

theorem lProc_ok (c : Nat) : (lProc φ c).Ok α δ where
  run _ _ _ := Nat.zero_le _
  destroy _ _ _ := Nat.zero_le _
  throw {f e f'} h := by
    cases f <;> simp only [wthrow, Option.some.injEq, reduceCtorEq] at h <;> subst h <;> first | exact Nat.zero_le _ | exact Nat.le_refl _
  step {v d d' rv f a} h hc := by
    cases h
    case relRet c' p x hx ha => rcases ha with ⟨-, rfl⟩ | rfl <;> subst hx <;> ws lProc <;> grind [b1]
    case relThr c' p x hx ha => rcases ha with ⟨-, rfl⟩ | rfl <;> subst hx <;> ws lProc <;> grind [b1]
    case dIn c' i q x hx ha => rcases ha with ⟨-, rfl⟩ | rfl <;> subst hx <;> ws lProc <;> grind [b1, List.count_append, List.count_singleton]
    all_goals try subst_vars
    all_goals ws lProc
    all_goals try simp only [b1]
    all_goals grind [List.count_append, List.count_singleton]

/-! ## Reading the accounts -/

variable {U : WApp α φ δ χ} {u0 : δ} {f0 : φ} {s : WSt α φ δ}

theorem WL.Ok.mem {L : WL φ} (h : L.Ok α δ) (hr : WR U u0 f0 s) {t : Nat} {f : WFrame φ} (hm : .client (.app f) ∈ s.stk t) :
    L.g f + L.out s.data.ad.ctx s.data.ad.nctx ≤ L.inn s.data.ad.ctx s.data.ad.nctx :=
  (h.al U u0 f0).mem (L.start _) hr hm

theorem WL.Ok.data {L : WL φ} (h : L.Ok α δ) (hr : WR U u0 f0 s) :
    L.out s.data.ad.ctx s.data.ad.nctx ≤ L.inn s.data.ad.ctx s.data.ad.nctx :=
  (h.al U u0 f0).data (L.start _) hr

theorem made_le (hr : WR U u0 f0 s) {c : Nat} (hc : c < s.data.ad.nctx) (j : Nat) : (s.data.ad.ctx c).made.count j ≤ 1 := by
  have := (lMade_ok c j).data hr
  simpa [lMade, hc] using this

theorem freed_le (hr : WR U u0 f0 s) {c : Nat} (hc : c < s.data.ad.nctx) (j : Nat) :
    (s.data.ad.ctx c).freed.count j ≤ (s.data.ad.ctx c).made.count j := by
  have := (lFree_ok c j).data hr
  simpa [lFree, hc] using this

theorem done_le (hr : WR U u0 f0 s) {c : Nat} (hc : c < s.data.ad.nctx) (j : Nat) :
    (s.data.ad.ctx c).done.count j ≤ (s.data.ad.ctx c).made.count j := by
  have := (lRun_ok c j).data hr
  simpa [lRun, hc] using this

theorem ended_le (hr : WR U u0 f0 s) {c : Nat} (hc : c < s.data.ad.nctx) (j : Nat) :
    (s.data.ad.ctx c).ended.count j + (s.data.ad.ctx c).failed.count j ≤ (s.data.ad.ctx c).done.count j := by
  have := (lEnd_ok c j).data hr
  simpa [lEnd, hc] using this

/-- The lambda for index `i` of context `c` is running and has done its work. -/
def ending (c i : Nat) (f : WFrame φ) : Prop := f = .kSet c i ∨ f = .kAll c i ∨ ∃ e, f = .kThr c i e

theorem ended_lt (hr : WR U u0 f0 s) {t c i : Nat} {f : WFrame φ} (hc : c < s.data.ad.nctx) (hf : ending c i f) (hm : .client (.app f) ∈ s.stk t) :
    (s.data.ad.ctx c).ended.count i + (s.data.ad.ctx c).failed.count i + 1 ≤ (s.data.ad.ctx c).done.count i := by
  have := (lEnd_ok c i).mem hr hm
  rcases hf with rfl | rfl | ⟨e, rfl⟩ <;> (simp [lEnd, hc, b1] at this; omega)

theorem freed_lt (hr : WR U u0 f0 s) {t c i q : Nat} (hc : c < s.data.ad.nctx) (hm : .client (.app (.dIn c i q)) ∈ s.stk t) :
    (s.data.ad.ctx c).freed.count i + 1 ≤ (s.data.ad.ctx c).made.count i := by
  have := (lFree_ok c i).mem hr hm
  simp [lFree, hc, b1] at this; omega

theorem done_lt (hr : WR U u0 f0 s) {t c i q : Nat} (hc : c < s.data.ad.nctx) (hm : .client (.app (.kBody c i q)) ∈ s.stk t) :
    (s.data.ad.ctx c).done.count i + 1 ≤ (s.data.ad.ctx c).made.count i := by
  have := (lRun_ok c i).mem hr hm
  simp [lRun, hc, b1] at this; omega

theorem made_lt (hr : WR U u0 f0 s) {t c p id i : Nat} {l : List (Nat × Bool)} (hc : c < s.data.ad.nctx)
    (hm : .client (.app (.wLoop c p id i l)) ∈ s.stk t) : i ∉ (s.data.ad.ctx c).made := by
  have := (lMade_ok c i).mem hr hm
  simp [lMade, hc, b1] at this
  exact List.count_eq_zero.1 (by omega)

theorem rel_le1 (hr : WR U u0 f0 s) {c : Nat} (hc : c < s.data.ad.nctx) : (s.data.ad.ctx c).rel ≤ 1 := by
  have := (lOwn_ok c).data hr
  simpa [lOwn, hc] using this

theorem rel_0 (hr : WR U u0 f0 s) {t c : Nat} {r : Fin} (hc : c < s.data.ad.nctx) (hm : .client (.app (.rel c r)) ∈ s.stk t) :
    (s.data.ad.ctx c).rel = 0 := by
  have := (lOwn_ok c).mem hr hm
  simp [lOwn, hc, b1] at this; omega

theorem loop_rel (hr : WR U u0 f0 s) {t c p id i : Nat} {l : List (Nat × Bool)} (hc : c < s.data.ad.nctx)
    (hm : .client (.app (.wLoop c p id i l)) ∈ s.stk t) : (s.data.ad.ctx c).rel = 0 := by
  have := (lOwn_ok c).mem hr hm
  simp [lOwn, hc, b1] at this; omega

theorem proc_le (hr : WR U u0 f0 s) {t c p id i : Nat} {l : List (Nat × Bool)} (hc : c < s.data.ad.nctx)
    (hm : .client (.app (.wNext c p id i l)) ∈ s.stk t) : (s.data.ad.ctx c).processed + l.length + 1 ≤ (s.data.ad.ctx c).total := by
  have := (lProc_ok c).mem hr hm
  simp [lProc, hc, b1] at this; omega

end
end When
end Itc
