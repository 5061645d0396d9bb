import Verif.When.Ret
import Mathlib.Data.List.Perm.Subperm
import Mathlib.Data.List.Nodup

/-!
# Invariant of when_all / when_any (proof infrastructure, no claims)
-/
namespace Itc
namespace When
open Core Sync
section
variable {α φ δ χ : Type}

/-! ## Lists -/

theorem sub_all {l m : List Nat} (h : ∀ j, l.count j ≤ m.count j) (hl : m.length ≤ l.length) {j : Nat} (hj : j ∈ m) : j ∈ l := by
  have h1 : l.Subperm m := List.subperm_ext_iff.2 fun x _ => h x
  exact (h1.perm_of_length_le hl).mem_iff.2 hj

theorem sub_len {l m : List Nat} (h : ∀ j, l.count j ≤ m.count j) : l.length ≤ m.length :=
  (List.subperm_ext_iff.2 fun x _ => h x).length_le

theorem app_count {l m : List Nat} {i : Nat} (h : ∀ j, l.count j ≤ m.count j) (hi : l.count i + 1 ≤ m.count i) (j : Nat) :
    (l ++ [i]).count j ≤ m.count j := by
  rw [List.count_append, List.count_singleton]
  have := h j
  by_cases hj : i = j
  · subst hj; simp; omega
  · simp [hj]; exact this

/-- `recover` fills the gaps. -/
theorem recover_get : ∀ (l : List (Option Nat)) (m : List Nat), l.length = m.length → ∀ j : Nat, (recover l m)[j]? =
    (match l[j]? with | some (some q) => some (some q) | some none => (m[j]?).map some | none => none)
  | [], m, _, j => by cases m <;> simp [recover]
  | none :: l, [], h, j => by simp at h
  | some q :: l, [], h, j => by simp at h
  | none :: l, q :: m, h, 0 => by simp [recover]
  | some q' :: l, q :: m, h, 0 => by simp [recover]
  | none :: l, q :: m, h, j + 1 => by simpa [recover] using recover_get l m (by simpa using h) j
  | some q' :: l, q :: m, h, j + 1 => by simpa [recover] using recover_get l m (by simpa using h) j

theorem recover_len : ∀ (l : List (Option Nat)) (m : List Nat), (recover l m).length = l.length
  | [], m => by cases m <;> simp [recover]
  | none :: l, [] => by simp [recover]
  | some q :: l, [] => by simp [recover]
  | none :: l, q :: m => by simp [recover, recover_len l m]
  | some q' :: l, q :: m => by simp [recover, recover_len l m]

/-- The result holds exactly the inputs. -/
theorem codes_eq {l : List (Option Nat)} {ins : List (Nat × Bool)} (hl : l.length = ins.length)
    (h : ∀ (j q : Nat) (sh : Bool), ins[j]? = some (q, sh) → l[j]? = some (some q)) : l.map code = ins.map (·.1 + 1) := by
  apply List.ext_getElem?
  intro j
  rw [List.getElem?_map, List.getElem?_map]
  cases hj : ins[j]? with
  | none =>
    have : ins.length ≤ j := List.getElem?_eq_none_iff.1 hj
    rw [List.getElem?_eq_none (by omega)]; rfl
  | some x => obtain ⟨q, sh⟩ := x; rw [h j q sh hj]; rfl

/-! ## The invariant -/

/-- Input `i` of context `x` is `q`. -/
def Ctx.has (x : Ctx) (i q : Nat) : Prop := ∃ sh, x.ins[i]? = some (q, sh)

theorem Ctx.has.inj {x : Ctx} {i q q' : Nat} (h : x.has i q) (h' : x.has i q') : q = q' := by
  obtain ⟨a, h⟩ := h
  obtain ⟨b, h'⟩ := h'
  rw [h] at h'; cases h'; rfl

def allRdy (d : SData (WTask α)) (x : Ctx) : Prop := ∀ i q, x.has i q → rdy d q

def Ctx.full (x : Ctx) : Prop := (∀ j < x.total, j ∈ x.made) ∧ (x.any = true → x.total ≤ x.processed)

/-- The number of elements of the result. -/
def Ctx.width (x : Ctx) : Nat := if x.tup then x.ins.length else x.made.length

structure CI (d : SData (WTask α)) (x : Ctx) : Prop where
  total : x.total = x.ins.length
  made : x.made = List.range x.made.length
  madeLe : x.made.length ≤ x.total
  done : ∀ j ∈ x.done, ∃ q, x.has j q ∧ rdy d q
  freed : ∀ j ∈ x.freed, ∃ q, x.has j q ∧ rdy d q
  slen : x.slots.length = x.width
  states : x.any = true → x.states = (x.ins.take x.width).map (·.1)
  slot : ∀ j q, x.slots[j]? = some (some q) → x.has j q
  slotD : x.any = false → ∀ j ∈ x.done, ∃ q, x.slots[j]? = some (some q)
  ready : x.any = false → x.ready = x.done.length
  idx : x.any = true → x.ready ≠ 0 → ∃ q, x.has x.index q ∧ rdy d q
  fst : x.any = true → (x.ready ≠ 0 ↔ x.done ≠ [])
  proc : x.processed ≤ x.made.length
  refs : x.refs + x.freed.length + x.rel = 1 + x.made.length
  relM : 1 ≤ x.rel → x.abort = true ∨ x.full
  abort : x.abort = true → 1 ≤ x.rel

/-- What is known about a result given to the promise of context `x`. -/
def Claim (d : SData (WTask α)) (x : Ctx) : Res → Prop
  | .val v =>
    if x.any then (x.ins = [] ∧ v = .anyRes none []) ∨ ∃ i q, x.has i q ∧ rdy d q ∧ v = .anyRes (some i) (x.ins.map (·.1 + 1))
    else allRdy d x ∧ v = .ids (x.ins.map (·.1 + 1))
  | .exn e => e = .brokenPromise ∧ 1 ≤ x.rel ∧ (x.abort = true ∨ allRdy d x)

/-- Contexts only grow. -/
structure Gr (ad ad' : WData δ) : Prop where
  n : ad.nctx ≤ ad'.nctx
  any : ∀ {c}, c < ad.nctx → (ad'.ctx c).any = (ad.ctx c).any
  ins : ∀ {c}, c < ad.nctx → (ad'.ctx c).ins = (ad.ctx c).ins
  total : ∀ {c}, c < ad.nctx → (ad'.ctx c).total = (ad.ctx c).total
  made : ∀ {c j}, c < ad.nctx → j ∈ (ad.ctx c).made → j ∈ (ad'.ctx c).made
  abort : ∀ {c}, c < ad.nctx → (ad.ctx c).abort = true → (ad'.ctx c).abort = true
  rel : ∀ {c}, c < ad.nctx → (ad.ctx c).rel ≤ (ad'.ctx c).rel
  proc : ∀ {c}, c < ad.nctx → (ad.ctx c).processed ≤ (ad'.ctx c).processed
  tup : ∀ {c}, c < ad.nctx → (ad'.ctx c).tup = (ad.ctx c).tup

theorem Gr.refl (ad : WData δ) : Gr ad ad := ⟨Nat.le_refl _, fun _ => rfl, fun _ => rfl, fun _ => rfl, fun _ h => h, fun _ h => h, fun _ => Nat.le_refl _, fun _ => Nat.le_refl _, fun _ => rfl⟩

theorem Gr.upd {ad ad' : WData δ} {c : Nat} {x : Ctx} (hn : ad'.nctx = ad.nctx) (hc : ad'.ctx = set ad.ctx c x) (h1 : x.any = (ad.ctx c).any)
    (h2 : x.ins = (ad.ctx c).ins) (h3 : x.total = (ad.ctx c).total) (h4 : ∀ j ∈ (ad.ctx c).made, j ∈ x.made)
    (h5 : (ad.ctx c).abort = true → x.abort = true) (h6 : (ad.ctx c).rel ≤ x.rel := by subst_vars; first | exact Nat.le_refl _ | exact Nat.le_succ _)
    (h7 : (ad.ctx c).processed ≤ x.processed := by subst_vars; first | exact Nat.le_refl _ | exact Nat.le_add_right _ _)
    (h8 : x.tup = (ad.ctx c).tup := by subst_vars; rfl) : Gr ad ad' := by
  have key : ∀ {c'} (P : Ctx → Ctx → Prop), (∀ y, P y y) → P (ad.ctx c) x → P (ad.ctx c') (ad'.ctx c') := by
    intro c' P h h'
    rw [hc, ctx_set]
    split
    · rename_i e; subst e; exact h'
    · exact h _
  exact ⟨by omega, fun _ => key (fun y x => x.any = y.any) (fun _ => rfl) h1, fun _ => key (fun y x => x.ins = y.ins) (fun _ => rfl) h2,
    fun _ => key (fun y x => x.total = y.total) (fun _ => rfl) h3, fun _ => key (fun y x => _ ∈ y.made → _ ∈ x.made) (fun _ h => h) (h4 _),
    fun _ => key (fun y x => y.abort = true → x.abort = true) (fun _ h => h) h5, fun _ => key (fun y x => y.rel ≤ x.rel) (fun _ => Nat.le_refl _) h6,
    fun _ => key (fun y x => y.processed ≤ x.processed) (fun _ => Nat.le_refl _) h7, fun _ => key (fun y x => x.tup = y.tup) (fun _ => rfl) h8⟩

theorem Gr.new {ad ad' : WData δ} {x : Ctx} (hn : ad'.nctx = ad.nctx + 1) (hc : ad'.ctx = set ad.ctx ad.nctx x) : Gr ad ad' := by
  have key : ∀ {c}, c < ad.nctx → ad'.ctx c = ad.ctx c := fun h => by rw [hc, set_ne _ _ (by omega)]
  exact ⟨by omega, fun h => by rw [key h], fun h => by rw [key h], fun h => by rw [key h], fun h => by rw [key h]; exact id,
    fun h => by rw [key h]; exact id, fun h => Nat.le_of_eq (by rw [key h]), fun h => Nat.le_of_eq (by rw [key h]), fun h => by rw [key h]⟩

section mono
variable {d d' : SData (WTask α)} {ad ad' : WData δ} {c : Nat} (he : Ext d d') (hg : Gr ad ad') (hc : c < ad.nctx)
include hg hc

theorem Gr.has {i q : Nat} : (ad'.ctx c).has i q ↔ (ad.ctx c).has i q := by simp [Ctx.has, hg.ins hc]

theorem Gr.full (h : (ad.ctx c).full) : (ad'.ctx c).full :=
  ⟨fun j hj => hg.made hc (h.1 j (by rw [← hg.total hc]; exact hj)), fun ha => by
    have := h.2 ((hg.any hc).symm.trans ha); have := hg.proc hc; rw [hg.total hc]; omega⟩

include he

theorem Gr.allRdy (h : allRdy d (ad.ctx c)) : allRdy d' (ad'.ctx c) := fun i q hi => rdy_mono he (h i q ((hg.has hc).1 hi))

theorem Gr.claim {r : Res} (h : Claim d (ad.ctx c) r) : Claim d' (ad'.ctx c) r := by
  cases r with
  | val v =>
    simp only [Claim] at h ⊢
    rw [hg.any hc]
    split at h
    · rename_i ha
      rw [if_pos ha, hg.ins hc]
      rcases h with h | ⟨i, q, h1, h2, h3⟩
      · exact .inl h
      · exact .inr ⟨i, q, (hg.has hc).2 h1, rdy_mono he h2, h3⟩
    · rename_i ha
      rw [if_neg ha, hg.ins hc]
      exact ⟨hg.allRdy he hc h.1, h.2⟩
  | exn e => exact ⟨h.1, Nat.le_trans h.2.1 (hg.rel hc), h.2.2.imp (hg.abort hc) (hg.allRdy he hc)⟩

end mono

/-- A lambda of context `c` for input `i`, which is `q`. -/
def wkOk (ad : WData δ) (c i q : Nat) : Prop := c < ad.nctx ∧ (ad.ctx c).has i q ∧ i ∈ (ad.ctx c).made

/-- `p` was made for context `c`, and is ready if there are no inputs. -/
def retOk (d : SData (WTask α)) (ad : WData δ) (c p : Nat) : Prop := homeOk d c p ∧ ((ad.ctx c).ins = [] → rdy d p)

theorem retOk.mono {d d' : SData (WTask α)} {ad ad' : WData δ} {c p : Nat} (h : retOk d ad c p) (he : Ext d d') (hg : Gr ad ad') (hc : c < ad.nctx) :
    retOk d' ad' c p := ⟨h.1.mono he, fun h' => rdy_mono he (h.2 ((hg.ins hc).symm.trans h'))⟩

/-- The same before the future is asked for. -/
def retT (d : SData (WTask α)) (ad : WData δ) (c p : Nat) : Prop := ((ad.ctx c).tup = false → retOk d ad c p) ∧ ((ad.ctx c).tup = true → (ad.ctx c).ins ≠ [])

theorem retT.mono {d d' : SData (WTask α)} {ad ad' : WData δ} {c p : Nat} (h : retT d ad c p) (he : Ext d d') (hg : Gr ad ad') (hc : c < ad.nctx) :
    retT d' ad' c p :=
  ⟨fun ht => (h.1 ((hg.tup hc).symm.trans ht)).mono he hg hc, fun ht => by rw [hg.ins hc]; exact h.2 ((hg.tup hc).symm.trans ht)⟩

def loopOk (d : SData (WTask α)) (ad : WData δ) (c p i n : Nat) (l : List (Nat × Bool)) : Prop :=
  c < ad.nctx ∧ retT d ad c p ∧ l = (ad.ctx c).ins.drop (i + n) ∧ i + n + l.length = (ad.ctx c).total ∧ (∀ j < i + n, j ∈ (ad.ctx c).made) ∧
    ((ad.ctx c).any = true → i ≤ (ad.ctx c).processed)

def wf (d : SData (WTask α)) (ad : WData δ) : WFrame φ → Prop
  | .mkS c => c < ad.nctx ∧ (ad.ctx c).ins = [] ∧ (ad.ctx c).total = 0
  | .mkG c => c < ad.nctx ∧ (ad.ctx c).ins = [] ∧ (ad.ctx c).total = 0
  | .mkD c => c < ad.nctx ∧ (ad.ctx c).ins = [] ∧ (ad.ctx c).total = 0 ∧ ∃ p, rdy d p ∧ homeOk d c p
  | .wGet c l => c < ad.nctx ∧ l = (ad.ctx c).ins ∧ l.length = (ad.ctx c).total ∧ l ≠ []
  | .wGot c l => c < ad.nctx ∧ l = (ad.ctx c).ins ∧ l.length = (ad.ctx c).total ∧ l ≠ []
  | .wLoop c p _ i l => loopOk d ad c p i 0 l
  | .wNext c p _ i l => loopOk d ad c p i 1 l
  | .aIn c p => c < ad.nctx ∧ retT d ad c p ∧ (ad.ctx c).any = true ∧ (ad.ctx c).full
  | .aSet c p => c < ad.nctx ∧ retT d ad c p ∧ (ad.ctx c).full
  | .aUnl c (.ret p) => c < ad.nctx ∧ retT d ad c p ∧ (ad.ctx c).full
  | .gGet c => c < ad.nctx ∧ (ad.ctx c).ins ≠ [] ∧ (ad.ctx c).full
  | .gGot c => c < ad.nctx ∧ (ad.ctx c).ins ≠ [] ∧ (ad.ctx c).full
  | .rel c (.ret p) => c < ad.nctx ∧ retOk d ad c p ∧ (ad.ctx c).full
  | .aUnl c (.thr _) => c < ad.nctx
  | .rel c (.thr _) => c < ad.nctx
  | .kIn c i q => wkOk ad c i q ∧ rdy d q
  | .kBody c i q => wkOk ad c i q ∧ rdy d q
  | .dIn c i q => wkOk ad c i q ∧ rdy d q
  | .kSet c _ => c < ad.nctx
  | .kAll c _ => c < ad.nctx
  | .kUnl c _ => c < ad.nctx
  | .kEnd c _ => c < ad.nctx
  | .kThr c _ _ => c < ad.nctx
  | _ => True

def wq (d : SData (WTask α)) (ad : WData δ) : SApi (WTask α) → Prop
  | .promMove q q' => (∀ c, q ≠ pob c) ∧ ∀ c, q' ≠ pob c
  | .promSet q r => ∀ c, q = pob c → c < ad.nctx ∧ Claim d (ad.ctx c) r
  | .promDtor q => ∀ c, q = pob c → c < ad.nctx ∧ Claim d (ad.ctx c) (.exn .brokenPromise)
  | _ => True

def wG (d : SData (WTask α)) (ad : WData δ) (p : Nat) (r : Res) : Prop :=
  p < d.nst ∧ ((d.st p).owner = .usr → ∀ c, (d.st p).home = pob c → c < ad.nctx ∧ Claim d (ad.ctx c) r)

def wp (α φ δ : Type) : AP (WTask α) (WFrame φ) (WData δ) where
  W _ ad q a := match a with
    | .usr _ => True
    | .wk c i q' => q' = q ∧ wkOk ad c i q
  L d ad a := match a with
    | .usr _ => True
    | .wk c i q => wkOk ad c i q ∧ rdy d q
  F d ad _ f := wf d ad f
  Q d ad a := wq d ad a
  G d ad p r := wG d ad p r

theorem wkOk.mono {ad ad' : WData δ} (hg : Gr ad ad') {c i q : Nat} (h : wkOk ad c i q) : wkOk ad' c i q :=
  ⟨Nat.lt_of_lt_of_le h.1 hg.n, (hg.has h.1).2 h.2.1, hg.made h.1 h.2.2⟩

theorem loopOk.mono {d d' : SData (WTask α)} {ad ad' : WData δ} (he : Ext d d') (hg : Gr ad ad') {c p i n : Nat} {l : List (Nat × Bool)}
    (h : loopOk d ad c p i n l) : loopOk d' ad' c p i n l :=
  ⟨Nat.lt_of_lt_of_le h.1 hg.n, h.2.1.mono he hg h.1, by rw [hg.ins h.1]; exact h.2.2.1, by rw [hg.total h.1]; exact h.2.2.2.1,
    fun j hj => hg.made h.1 (h.2.2.2.2.1 j hj), fun ha => Nat.le_trans (h.2.2.2.2.2 ((hg.any h.1).symm.trans ha)) (hg.proc h.1)⟩

theorem wf_mono {d d' : SData (WTask α)} {ad ad' : WData δ} (he : Ext d d') (hg : Gr ad ad') {f : WFrame φ} (h : wf d ad f) : wf d' ad' f := by
  have hn : ∀ {c}, c < ad.nctx → c < ad'.nctx := fun h => Nat.lt_of_lt_of_le h hg.n
  cases f
  case mkS => exact ⟨hn h.1, (hg.ins h.1).trans h.2.1, (hg.total h.1).trans h.2.2⟩
  case mkG => exact ⟨hn h.1, (hg.ins h.1).trans h.2.1, (hg.total h.1).trans h.2.2⟩
  case mkD => obtain ⟨h1, h2, h3, p, h4, h5⟩ := h; exact ⟨hn h1, (hg.ins h1).trans h2, (hg.total h1).trans h3, p, rdy_mono he h4, h5.mono he⟩
  case wGet => exact ⟨hn h.1, h.2.1.trans (hg.ins h.1).symm, h.2.2.1.trans (hg.total h.1).symm, h.2.2.2⟩
  case wGot => exact ⟨hn h.1, h.2.1.trans (hg.ins h.1).symm, h.2.2.1.trans (hg.total h.1).symm, h.2.2.2⟩
  case wLoop => exact loopOk.mono he hg h
  case wNext => exact loopOk.mono he hg h
  case aIn => exact ⟨hn h.1, h.2.1.mono he hg h.1, (hg.any h.1).trans h.2.2.1, hg.full h.1 h.2.2.2⟩
  case aSet => exact ⟨hn h.1, h.2.1.mono he hg h.1, hg.full h.1 h.2.2⟩
  case aUnl c r =>
    cases r with
    | ret p => exact ⟨hn h.1, h.2.1.mono he hg h.1, hg.full h.1 h.2.2⟩
    | thr e => exact hn h
  case rel c r =>
    cases r with
    | ret p => exact ⟨hn h.1, h.2.1.mono he hg h.1, hg.full h.1 h.2.2⟩
    | thr e => exact hn h
  case gGet => exact ⟨hn h.1, by rw [hg.ins h.1]; exact h.2.1, hg.full h.1 h.2.2⟩
  case gGot => exact ⟨hn h.1, by rw [hg.ins h.1]; exact h.2.1, hg.full h.1 h.2.2⟩
  case kIn => exact ⟨h.1.mono hg, rdy_mono he h.2⟩
  case kBody => exact ⟨h.1.mono hg, rdy_mono he h.2⟩
  case dIn => exact ⟨h.1.mono hg, rdy_mono he h.2⟩
  case kSet => exact hn h
  case kAll => exact hn h
  case kEnd => exact hn h
  case kUnl => exact hn h
  case kThr => exact hn h
  all_goals trivial

theorem wl_mono {d d' : SData (WTask α)} {ad ad' : WData δ} (he : Ext d d') (hg : Gr ad ad') {a : WTask α} (h : (wp α φ δ).L d ad a) : (wp α φ δ).L d' ad' a := by
  cases a with
  | usr a => trivial
  | wk c i q' => exact ⟨h.1.mono hg, rdy_mono he h.2⟩

theorem wp_le {d d' : SData (WTask α)} {ad ad' : WData δ} (he : Ext d d') (hg : Gr ad ad') : (wp α φ δ).Le d ad d' ad' where
  W {q a} h := by
    cases a with
    | usr a => trivial
    | wk c i q' => exact ⟨h.1, h.2.mono hg⟩
  L h := wl_mono (φ := φ) he hg h
  R h := wl_mono (φ := φ) he hg h
  D h := wl_mono (φ := φ) he hg h
  X h := h
  F h := wf_mono he hg h
  Q {a} h := by
    cases a <;> first | trivial | exact h | skip
    · intro c hc; exact ⟨Nat.lt_of_lt_of_le (h c hc).1 hg.n, hg.claim he (h c hc).1 (h c hc).2⟩
    · intro c hc; exact ⟨Nat.lt_of_lt_of_le (h c hc).1 hg.n, hg.claim he (h c hc).1 (h c hc).2⟩
  G {p r} h := by
    refine ⟨lt_mono he h.1, ?_⟩
    rw [he.owner h.1, he.home h.1]
    intro ho c hc
    exact ⟨Nat.lt_of_lt_of_le (h.2 ho c hc).1 hg.n, hg.claim he (h.2 ho c hc).1 (h.2 ho c hc).2⟩

structure WI (d : SData (WTask α)) (ad : WData δ) : Prop where
  obj : objOk d
  ctx : ∀ c < ad.nctx, CI d (ad.ctx c)
  log : ∀ t c any ins p, WEv.returned t c any ins p ∈ ad.wlog → c < ad.nctx ∧ retOk d ad c p ∧ (ad.ctx c).any = any ∧
    (ad.ctx c).ins.map (·.1) = ins ∧ (ad.ctx c).abort = false ∧ 1 ≤ (ad.ctx c).rel
  emp : ∀ c < ad.nctx, (ad.ctx c).ins = [] → (ad.ctx c).abort = false → 1 ≤ (ad.ctx c).rel → ∃ p, homeOk d c p ∧ rdy d p

theorem CI.mono {d d' : SData (WTask α)} {x : Ctx} (he : Ext d d') (h : CI d x) : CI d' x where
  total := h.total
  made := h.made
  madeLe := h.madeLe
  done j hj := by obtain ⟨q, h1, h2⟩ := h.done j hj; exact ⟨q, h1, rdy_mono he h2⟩
  freed j hj := by obtain ⟨q, h1, h2⟩ := h.freed j hj; exact ⟨q, h1, rdy_mono he h2⟩
  slen := h.slen
  states := h.states
  slot := h.slot
  slotD := h.slotD
  ready := h.ready
  idx ha hr := by obtain ⟨q, h1, h2⟩ := h.idx ha hr; exact ⟨q, h1, rdy_mono he h2⟩
  fst := h.fst
  proc := h.proc
  refs := h.refs
  relM := h.relM
  abort := h.abort

/-! ## Steps of a context -/

theorem CI.full_len {d : SData (WTask α)} {x : Ctx} (h : CI d x) (hf : x.full) : x.made.length = x.total := by
  rcases Nat.lt_or_ge x.made.length x.total with h1 | h1
  · have := hf.1 _ h1; rw [h.made] at this; simp at this
  · have := h.madeLe; omega

theorem CI.width {d : SData (WTask α)} {x : Ctx} (h : CI d x) (hf : x.made.length = x.total) : x.width = x.ins.length := by
  unfold Ctx.width; rw [hf, h.total]; split <;> rfl

theorem CI.made_width {d : SData (WTask α)} {x : Ctx} (h : CI d x) : x.made.length ≤ x.width := by
  have := h.madeLe; have := h.total; unfold Ctx.width; split <;> omega

theorem CI.mem_made {d : SData (WTask α)} {x : Ctx} (h : CI d x) {j : Nat} : j ∈ x.made ↔ j < x.made.length := by
  conv_lhs => rw [h.made, List.mem_range]

theorem CI.has_lt {d : SData (WTask α)} {x : Ctx} (h : CI d x) {j q : Nat} (hj : x.has j q) : j < x.total := by
  obtain ⟨sh, hj⟩ := hj
  rw [h.total]
  exact (List.getElem?_eq_some_iff.1 hj).1

/-- The value of when_all. -/
theorem CI.val_all {d : SData (WTask α)} {x : Ctx} (h : CI d x) (ha : x.any = false) (hr : x.ready = x.total) (hd : ∀ j, x.done.count j ≤ x.made.count j) :
    Claim d x (.val x.value) := by
  have h1 : x.done.length = x.total := by rw [← h.ready ha]; exact hr
  have h2 : x.made.length = x.total := by have := sub_len hd; have := h.madeLe; omega
  have h3 : ∀ j < x.total, j ∈ x.done := fun j hj => sub_all hd (by omega) (h.mem_made.2 (by omega))
  simp only [Claim, ha, Bool.false_eq_true, if_false, Ctx.value]
  refine ⟨?_, ?_⟩
  · intro i q hi
    obtain ⟨q', h4, h5⟩ := h.done i (h3 i (h.has_lt hi))
    rw [hi.inj h4]; exact h5
  · rw [codes_eq (by rw [h.slen, h.width h2]) ?_]
    intro j q sh hj
    obtain ⟨q', h4⟩ := h.slotD ha j (h3 j (h.has_lt ⟨sh, hj⟩))
    rw [h4, (h.slot j q' h4).inj ⟨sh, hj⟩]

/-- The value of when_any. -/
theorem CI.val_any {d : SData (WTask α)} {x y : Ctx} (h : CI d x) (ha : x.any = true) (hr : x.ready ≠ 0) (hf : x.made.length = x.total)
    (hy : y = { x with slots := recover x.slots x.states }) : Claim d y (.val y.value) := by
  subst hy
  simp only [Claim, ha, if_true, Ctx.value]
  obtain ⟨q, h1, h2⟩ := h.idx ha hr
  refine .inr ⟨x.index, q, h1, h2, ?_⟩
  have h4 : x.states = x.ins.map (·.1) := by rw [h.states ha, h.width hf, List.take_length]
  rw [codes_eq (ins := x.ins) ?_ ?_]
  · rw [recover_len, h.slen, h.width hf]
  · intro j q' sh hj
    have hlt : j < x.slots.length := by rw [h.slen, h.width hf, ← h.total]; exact h.has_lt ⟨sh, hj⟩
    rw [recover_get _ _ (by rw [h4, List.length_map, h.slen, h.width hf])]
    rw [List.getElem?_eq_getElem hlt]
    cases hs : x.slots[j] with
    | none => simp [h4, hj]
    | some q2 =>
      have := h.slot j q2 (by rw [List.getElem?_eq_getElem hlt, hs])
      simp [this.inj ⟨sh, hj⟩]

/-- Recovering the futures keeps the invariant. -/
theorem CI.recov {d : SData (WTask α)} {x : Ctx} (h : CI d x) (ha : x.any = true) : CI d { x with slots := recover x.slots x.states } where
  total := h.total
  made := h.made
  madeLe := h.madeLe
  done := h.done
  freed := h.freed
  slen := by rw [recover_len]; exact h.slen
  states := h.states
  slot j q hj := by
    have h1 : x.slots.length = x.states.length := by
      rw [h.states ha, List.length_map, List.length_take, h.slen]; have := h.madeLe; have := h.total; unfold Ctx.width; split <;> omega
    replace hj : (recover x.slots x.states)[j]? = some (some q) := hj
    rw [recover_get _ _ h1] at hj
    split at hj
    · rename_i q' hq; cases hj; exact h.slot j _ hq
    · rw [h.states ha, List.getElem?_map, List.getElem?_take] at hj
      split at hj
      · simp only [Option.map_map, Option.map_eq_some_iff, Function.comp] at hj
        obtain ⟨⟨q', sh⟩, h2, h3⟩ := hj
        cases h3; exact ⟨sh, h2⟩
      · simp at hj
    · cases hj
  slotD hf := by rw [show x.any = true from ha] at hf; cases hf
  ready := h.ready
  idx := h.idx
  fst := h.fst
  proc := h.proc
  refs := h.refs
  relM := h.relM
  abort := h.abort

/-- A lambda is run. -/
theorem CI.fin {d : SData (WTask α)} {x : Ctx} (h : CI d x) {i q : Nat} (hi : x.has i q) (hm : i ∈ x.made) (hq : rdy d q) (hx : x.any = true) :
    CI d { x with index := i, ready := 1, slots := x.slots.set i (some q), done := x.done ++ [i] } where
  total := h.total
  made := h.made
  madeLe := h.madeLe
  done j hj := by
    rcases List.mem_append.1 hj with hj | hj
    · exact h.done j hj
    · simp at hj; subst hj; exact ⟨q, hi, hq⟩
  freed := h.freed
  slen := by rw [List.length_set]; exact h.slen
  states := h.states
  slot j q' hj := by
    replace hj : (x.slots.set i (some q))[j]? = some (some q') := hj
    rw [List.getElem?_set] at hj
    split at hj
    · rename_i e; subst e
      split at hj
      · cases hj; exact hi
      · cases hj
    · exact h.slot j q' hj
  slotD hf := by rw [show x.any = true from hx] at hf; cases hf
  ready hf := by rw [show x.any = true from hx] at hf; cases hf
  idx _ _ := ⟨q, hi, hq⟩
  fst _ := by simp
  proc := h.proc
  refs := h.refs
  relM := h.relM
  abort := h.abort

theorem CI.late {d : SData (WTask α)} {x : Ctx} (h : CI d x) {i q : Nat} (hi : x.has i q) (hq : rdy d q) (hx : x.any = true) (hr : x.ready ≠ 0) :
    CI d { x with done := x.done ++ [i] } where
  total := h.total
  made := h.made
  madeLe := h.madeLe
  done j hj := by
    rcases List.mem_append.1 hj with hj | hj
    · exact h.done j hj
    · simp at hj; subst hj; exact ⟨q, hi, hq⟩
  freed := h.freed
  slen := h.slen
  states := h.states
  slot := h.slot
  slotD hf := by rw [show x.any = true from hx] at hf; cases hf
  ready hf := by rw [show x.any = true from hx] at hf; cases hf
  idx := h.idx
  fst _ := by simp [hr]
  proc := h.proc
  refs := h.refs
  relM := h.relM
  abort := h.abort

theorem CI.one {d : SData (WTask α)} {x : Ctx} (h : CI d x) {i q : Nat} (hi : x.has i q) (hm : i ∈ x.made) (hq : rdy d q) (hx : x.any = false) :
    CI d { x with slots := x.slots.set i (some q), ready := x.ready + 1, done := x.done ++ [i] } where
  total := h.total
  made := h.made
  madeLe := h.madeLe
  done j hj := by
    rcases List.mem_append.1 hj with hj | hj
    · exact h.done j hj
    · simp at hj; subst hj; exact ⟨q, hi, hq⟩
  freed := h.freed
  slen := by rw [List.length_set]; exact h.slen
  states := h.states
  slot j q' hj := by
    replace hj : (x.slots.set i (some q))[j]? = some (some q') := hj
    rw [List.getElem?_set] at hj
    split at hj
    · rename_i e; subst e
      split at hj
      · cases hj; exact hi
      · cases hj
    · exact h.slot j q' hj
  slotD _ j hj := by
    show ∃ q', (x.slots.set i (some q))[j]? = some (some q')
    rw [List.getElem?_set]
    have hlt : i < x.slots.length := by rw [h.slen]; exact Nat.lt_of_lt_of_le (h.mem_made.1 hm) h.made_width
    split
    · rename_i e; subst e; exact ⟨q, by simp [hlt]⟩
    · rename_i e
      rcases List.mem_append.1 hj with hj | hj
      · exact h.slotD hx j hj
      · simp at hj; exact absurd hj.symm e
  ready _ := by rw [List.length_append, ← h.ready hx]; rfl
  idx hf := by rw [show x.any = false from hx] at hf; cases hf
  fst hf := by rw [show x.any = false from hx] at hf; cases hf
  proc := h.proc
  refs := h.refs
  relM := h.relM
  abort := h.abort

/-- An input is attached. -/
theorem CI.add {d : SData (WTask α)} {x : Ctx} (h : CI d x) {i q : Nat} {sh : Bool} {o : Option Nat} (hi : x.ins[i]? = some (q, sh)) (hm : x.made.length = i)
    (ho : o = some q ∨ o = none) (hr : x.rel = 0) (hd : ∀ j ∈ x.done, j ∈ x.made) :
    CI d { x with slots := (if x.tup then x.slots.set i o else x.slots ++ [o]), states := (if x.any && !x.tup then x.states ++ [q] else x.states), refs := x.refs + 1, made := x.made ++ [i] } where
  total := h.total
  made := by
    show x.made ++ [i] = List.range (x.made ++ [i]).length
    rw [List.length_append, List.length_singleton, List.range_succ, ← h.made, hm]
  madeLe := by
    show (x.made ++ [i]).length ≤ x.total
    have := h.has_lt ⟨sh, hi⟩
    simp; omega
  done := h.done
  freed := h.freed
  slen := by
    have := h.slen
    simp only [Ctx.width] at this ⊢
    split <;> simp_all
  states ha := by
    have ha : x.any = true := ha
    have := h.states ha
    show (if x.any && !x.tup then x.states ++ [q] else x.states) = _
    simp only [Ctx.width] at this ⊢
    cases ht : x.tup
    · rw [ht] at this
      simp only [ha, Bool.not_false, Bool.and_true, Bool.false_eq_true, if_true, if_false, List.length_append, List.length_singleton] at this ⊢
      rw [this, List.take_add_one, hm, hi]
      simp
    · rw [ht] at this
      simpa using this
  slot j q' hj := by
    replace hj : (if x.tup then x.slots.set i o else x.slots ++ [o])[j]? = some (some q') := hj
    have hsl := h.slen
    simp only [Ctx.width] at hsl
    have hio : ∀ q', o = some q' → x.has i q' := by
      intro q' h
      rcases ho with ho | ho
      · rw [ho] at h; cases h; exact ⟨sh, hi⟩
      · rw [ho] at h; cases h
    split at hj
    · rw [List.getElem?_set] at hj
      split at hj
      · rename_i e; subst e
        split at hj
        · exact hio _ (Option.some.inj hj)
        · cases hj
      · exact h.slot j q' hj
    · rename_i ht
      rw [if_neg ht] at hsl
      rw [List.getElem?_append] at hj
      split at hj
      · exact h.slot j q' hj
      · rename_i hl
        have : j = i := by
          rw [List.getElem?_singleton] at hj
          split at hj
          · omega
          · cases hj
        subst this
        rw [hsl, hm, Nat.sub_self] at hj
        simp at hj
        exact hio _ hj
  slotD ha j hj := by
    obtain ⟨q', h1⟩ := h.slotD ha j hj
    refine ⟨q', ?_⟩
    show (if x.tup then x.slots.set i o else x.slots ++ [o])[j]? = _
    split
    · rw [List.getElem?_set, if_neg ?_]; exact h1
      have := h.mem_made.1 (hd j hj)
      omega
    · rw [List.getElem?_append_left (List.getElem?_eq_some_iff.1 h1).1]; exact h1
  ready := h.ready
  idx := h.idx
  fst := h.fst
  proc := by have := h.proc; simp; omega
  refs := by have := h.refs; simp; omega
  relM h' := by have h' : 1 ≤ x.rel := h'; omega
  abort := h.abort

theorem CI.next {d : SData (WTask α)} {x : Ctx} (h : CI d x) {n : Nat} (hn : x.processed + n ≤ x.made.length) :
    CI d { x with processed := x.processed + n } where
  total := h.total
  made := h.made
  madeLe := h.madeLe
  done := h.done
  freed := h.freed
  slen := h.slen
  states := h.states
  slot := h.slot
  slotD := h.slotD
  ready := h.ready
  idx := h.idx
  fst := h.fst
  proc := hn
  refs := h.refs
  relM h' := (h.relM h').imp id fun hf => ⟨hf.1, fun ha => Nat.le_trans (hf.2 ha) (Nat.le_add_right _ _)⟩
  abort := h.abort

theorem CI.pset {d : SData (WTask α)} {x : Ctx} (h : CI d x) : CI d { x with pset := true } where
  total := h.total
  made := h.made
  madeLe := h.madeLe
  done := h.done
  freed := h.freed
  slen := h.slen
  states := h.states
  slot := h.slot
  slotD := h.slotD
  ready := h.ready
  idx := h.idx
  fst := h.fst
  proc := h.proc
  refs := h.refs
  relM := h.relM
  abort := h.abort

theorem CI.ghost {d : SData (WTask α)} {x : Ctx} (h : CI d x) {a b : List Nat} : CI d { x with ended := a, failed := b } where
  total := h.total
  made := h.made
  madeLe := h.madeLe
  done := h.done
  freed := h.freed
  slen := h.slen
  states := h.states
  slot := h.slot
  slotD := h.slotD
  ready := h.ready
  idx := h.idx
  fst := h.fst
  proc := h.proc
  refs := h.refs
  relM := h.relM
  abort := h.abort

theorem CI.release {d : SData (WTask α)} {x : Ctx} (h : CI d x) {b : Bool} (hr : x.rel = 0) (hf : x.freed.length ≤ x.made.length)
    (hb : b = true ∨ x.full) : CI d { x with rel := x.rel + 1, abort := b, refs := x.refs - 1 } where
  total := h.total
  made := h.made
  madeLe := h.madeLe
  done := h.done
  freed := h.freed
  slen := h.slen
  states := h.states
  slot := h.slot
  slotD := h.slotD
  ready := h.ready
  idx := h.idx
  fst := h.fst
  proc := h.proc
  refs := by have := h.refs; show x.refs - 1 + x.freed.length + (x.rel + 1) = 1 + x.made.length; omega
  relM _ := hb
  abort _ := by show 1 ≤ x.rel + 1; omega

theorem CI.free {d : SData (WTask α)} {x : Ctx} (h : CI d x) {i q : Nat} (hi : x.has i q) (hq : rdy d q) (hf : x.freed.length + 1 ≤ x.made.length) (hr : x.rel ≤ 1) :
    CI d { x with freed := x.freed ++ [i], refs := x.refs - 1 } where
  total := h.total
  made := h.made
  madeLe := h.madeLe
  done := h.done
  freed j hj := by
    rcases List.mem_append.1 hj with hj | hj
    · exact h.freed j hj
    · simp at hj; subst hj; exact ⟨q, hi, hq⟩
  slen := h.slen
  states := h.states
  slot := h.slot
  slotD := h.slotD
  ready := h.ready
  idx := h.idx
  fst := h.fst
  proc := h.proc
  refs := by have := h.refs; show x.refs - 1 + (x.freed ++ [i]).length + x.rel = 1 + x.made.length; simp; omega
  relM := h.relM
  abort := h.abort

/-- When the last reference is released, all lambdas were destroyed. -/
theorem CI.last {d : SData (WTask α)} {x : Ctx} (h : CI d x) (h0 : x.refs = 0) (hr : x.rel ≤ 1) (hf : ∀ j, x.freed.count j ≤ x.made.count j) :
    Claim d x (.exn .brokenPromise) := by
  have h1 := h.refs
  have h2 := sub_len hf
  refine ⟨rfl, by omega, (h.relM (by omega)).imp id ?_⟩
  intro hfu i q hi
  obtain ⟨q', h4, h5⟩ := h.freed i (sub_all hf (by omega) (hfu.1 i (h.has_lt hi)))
  rw [hi.inj h4]; exact h5

theorem CI.init (d : SData (WTask α)) (tup any : Bool) (ins : List (Nat × Bool)) : CI d (newCtx tup any ins) where
  total := rfl
  made := rfl
  madeLe := Nat.zero_le _
  done j hj := by simp [newCtx] at hj
  freed j hj := by simp [newCtx] at hj
  slen := by cases tup <;> simp [newCtx, Ctx.width]
  states ha := by
    obtain rfl : any = true := ha
    cases tup <;> simp [newCtx, Ctx.width]
  slot j q hj := by
    cases tup <;> simp [newCtx] at hj
    obtain ⟨h1 | h1, -⟩ := hj <;> exact ⟨_, h1⟩
  slotD _ j hj := by simp [newCtx] at hj
  ready _ := rfl
  idx _ h := by simp [newCtx] at h
  fst _ := by simp [newCtx]
  proc := Nat.le_refl _
  refs := rfl
  relM h := by simp [newCtx] at h
  abort h := by simp [newCtx] at h

/-! ## Typing -/

theorem wq_mapS {d : SData (WTask α)} {ad : WData δ} (a : SApi α) : wq d ad (mapS a) := by
  have ne : ∀ {n c : Nat}, 2 * n ≠ pob c := by intro n c h; unfold pob at h; omega
  cases a <;> first | trivial | skip
  case promDtor => exact fun c h => absurd h ne
  case promMove => exact ⟨fun c h => absurd h ne, fun c h => absurd h ne⟩
  case promSet => exact fun c h => absurd h ne

variable {U : WApp α φ δ χ} {u0 : δ} {f0 : φ}

/-- What a step of when_all / when_any has to establish. -/
def Goal (d : SData (WTask α)) (ad ad' : WData δ) (t : Nat) (a : SAct (WTask α) (WFrame φ)) : Prop :=
  WI d ad' ∧ Gr ad ad' ∧ saOk ((wp α φ δ).W d ad') ((wp α φ δ).L d ad') ((wp α φ δ).F d ad') ((wp α φ δ).Q d ad') ((wp α φ δ).X d ad')
    ((wp α φ δ).R d ad') ((wp α φ δ).D d ad') t a

/-- An update of one context. -/
theorem WI.upd {d : SData (WTask α)} {ad ad' : WData δ} (h : WI d ad) {c : Nat} {x : Ctx} (hc : c < ad.nctx) (hn : ad'.nctx = ad.nctx)
    (hx : ad'.ctx = set ad.ctx c x) (hi : CI d x) (h1 : x.any = (ad.ctx c).any) (h2 : x.ins = (ad.ctx c).ins)
    (h3 : (ad.ctx c).abort = false → 1 ≤ (ad.ctx c).rel → x.abort = false) (h4 : (ad.ctx c).rel ≤ x.rel)
    (hl : ∀ e ∈ ad'.wlog, e ∈ ad.wlog ∨ ∃ t p, e = .returned t c x.any (x.ins.map (·.1)) p ∧ homeOk d c p ∧ (x.ins = [] → rdy d p) ∧ x.abort = false ∧ 1 ≤ x.rel)
    (h7 : x.ins = [] → x.abort = false → 1 ≤ x.rel → 1 ≤ (ad.ctx c).rel ∧ (ad.ctx c).abort = false ∨ ∃ p, homeOk d c p ∧ rdy d p := by
      subst_vars; exact fun _ h1 h2 => .inl ⟨h2, h1⟩) : WI d ad' where
  obj := h.obj
  ctx c' hc' := by
    rw [hx, ctx_set]
    split
    · exact hi
    · exact h.ctx c' (by omega)
  log t c' any ins p he := by
    rcases hl _ he with he | ⟨t', p', e, h5, h5', h6, h7⟩
    · obtain ⟨y1, y2, y3, y4, y5, y6⟩ := h.log t c' any ins p he
      rw [hn, hx, ctx_set]
      split
      · rename_i e; subst e
        exact ⟨y1, ⟨y2.1, by rw [hx, set_same, h2]; exact y2.2⟩, h1.trans y3, by rw [h2]; exact y4, h3 y5 y6, by omega⟩
      · rename_i hne; exact ⟨y1, ⟨y2.1, by rw [hx, set_ne _ _ hne]; exact y2.2⟩, y3, y4, y5, y6⟩
    · cases e
      rw [hn, hx, ctx_set, if_pos rfl]
      exact ⟨hc, ⟨h5, by rw [hx, set_same]; exact h5'⟩, rfl, rfl, h6, h7⟩

  emp c' hc' := by
    rw [hx, ctx_set]
    split
    · rename_i e; subst e
      intro y1 y2 y3
      rcases h7 y1 y2 y3 with ⟨y4, y5⟩ | y
      · exact h.emp c' (by omega) (h2 ▸ y1) y5 y4
      · exact y
    · exact h.emp c' (by omega)

theorem WI.new {d : SData (WTask α)} {ad ad' : WData δ} (h : WI d ad) {x : Ctx} (hn : ad'.nctx = ad.nctx + 1)
    (hx : ad'.ctx = set ad.ctx ad.nctx x) (hi : CI d x) (hl : ad'.wlog = ad.wlog) (h0 : x.rel = 0) : WI d ad' where
  obj := h.obj
  ctx c' hc' := by
    rw [hx, ctx_set]
    split
    · exact hi
    · exact h.ctx c' (by omega)
  log t c' any ins p he := by
    obtain ⟨y1, y2, y3, y4, y5, y6⟩ := h.log t c' any ins p (hl ▸ he)
    rw [hn, hx, ctx_set, if_neg (by omega)]
    exact ⟨by omega, ⟨y2.1, by rw [hx, set_ne _ _ (by omega)]; exact y2.2⟩, y3, y4, y5, y6⟩

  emp c' hc' := by
    rw [hx, ctx_set]
    split
    · intro _ _ h; omega
    · exact h.emp c' (by omega)

theorem app_goal {s : WSt α φ δ} {t : Nat} {f : WFrame φ} {rest : List (Fr (WTask α) (WFrame φ))} {ad' : WData δ} {a : SAct (WTask α) (WFrame φ)}
    (hj : WR U u0 f0 s) (he : (s.thr t).exc = none) (hst : s.stk t = .client (.app f) :: rest) (hi : WI s.data.sd s.data.ad)
    (hp : wf s.data.sd s.data.ad f) (hW : WS (s.view t) s.data.ad (s.thr t).rv f ad' a) : Goal s.data.sd s.data.ad ad' t a := by
  have hmem : Frame.client (SFrame.app f) ∈ s.stk t := hst ▸ List.mem_cons_self
  have hmade : ∀ {c}, c < s.data.ad.nctx → ∀ j, (s.data.ad.ctx c).made.count j ≤ 1 := fun hc => made_le hj hc
  have hdone : ∀ {c}, c < s.data.ad.nctx → ∀ j, (s.data.ad.ctx c).done.count j ≤ (s.data.ad.ctx c).made.count j := fun hc => done_le hj hc
  have hfreed : ∀ {c}, c < s.data.ad.nctx → ∀ j, (s.data.ad.ctx c).freed.count j ≤ (s.data.ad.ctx c).made.count j := fun hc => freed_le hj hc
  have hrel1 : ∀ {c}, c < s.data.ad.nctx → (s.data.ad.ctx c).rel ≤ 1 := fun hc => rel_le1 hj hc
  cases hW
  case bad => exact ⟨hi, Gr.refl _, trivial⟩
  case wIn any l x ins h =>
    exact ⟨hi.new rfl rfl (CI.init _ false any (x :: ins)) rfl rfl, Gr.new rfl rfl,
      ⟨Nat.lt_succ_self _, by simp [WData.upd, newCtx], by simp [WData.upd, newCtx], by simp⟩, trivial⟩
  case wInT any l x ins h =>
    exact ⟨hi.new rfl rfl (CI.init _ true any (x :: ins)) rfl rfl, Gr.new rfl rfl,
      ⟨Nat.lt_succ_self _, ⟨by simp [WData.upd, newCtx], by simp [WData.upd, newCtx]⟩, by simp [WData.upd, newCtx], by simp [WData.upd, newCtx],
        fun j hj => by omega, fun _ => Nat.zero_le _⟩, trivial⟩
  case wIn0 tup any l h =>
    exact ⟨hi.new rfl rfl (CI.init _ tup any []) rfl rfl, Gr.new rfl rfl, ⟨Nat.lt_succ_self _, by simp [WData.upd, newCtx], by simp [WData.upd, newCtx]⟩, trivial⟩
  case mkS c =>
    refine ⟨hi, Gr.refl _, hp, ?_⟩
    intro c' hc
    obtain rfl := pob_inj hc
    refine ⟨hp.1, ?_⟩
    have hno : ∀ i q, ¬ (s.data.ad.ctx c).has i q := by rintro i q ⟨sh, h⟩; rw [hp.2.1] at h; simp at h
    cases ha : (s.data.ad.ctx c).any
    · simp only [Claim, ha, emptyVal, Bool.false_eq_true, if_false, hp.2.1]
      exact ⟨fun i q h => absurd h (hno i q), rfl⟩
    · simp only [Claim, ha, emptyVal, if_true, hp.2.1]
      exact .inl ⟨trivial, trivial⟩
  case mkG c =>
    obtain ⟨p, h1, h2⟩ := mkG_ok hj hst he
    exact ⟨hi, Gr.refl _, ⟨hp.1, hp.2.1, hp.2.2, p, h1, h2⟩, trivial⟩
  case mkD c p h =>
    obtain ⟨p', h1, h2⟩ := mkD_ok hj hst he
    rw [h] at h1; cases h1
    obtain ⟨g1, g2, g3, p', g4, g5⟩ := hp
    exact ⟨hi, Gr.refl _, g1, ⟨h2, fun _ => by rw [home_one hj h2 g5]; exact g4⟩, fun j hj => by rw [g3] at hj; omega, fun _ => by rw [g3]; omega⟩
  case wGet c l => exact ⟨hi, Gr.refl _, hp, trivial⟩
  case wGot c l p h =>
    obtain ⟨p', h1, h2⟩ := got_ok hj hst he
    rw [h] at h1; cases h1
    exact ⟨hi, Gr.refl _, hp.1, ⟨fun _ => ⟨h2, fun h => absurd (hp.2.1.trans h) hp.2.2.2⟩, fun _ => hp.2.1 ▸ hp.2.2.2⟩, by simp [← hp.2.1], by rw [← hp.2.2.1]; simp, fun j hj => by omega, fun _ => Nat.zero_le _⟩
  case loopAny c p id i h =>
    obtain ⟨h1, h2, h3, h4, h5, h6⟩ := hp
    simp only [List.length_nil, Nat.add_zero] at h4
    exact ⟨hi, Gr.refl _, ⟨h1, h2, h, fun j hj => h5 j (by omega), fun ha => by have := h6 ha; omega⟩, trivial⟩
  case loopTup c p id i h h' =>
    obtain ⟨h1, h2, h3, h4, h5, h6⟩ := hp
    simp only [List.length_nil, Nat.add_zero] at h4
    exact ⟨hi, Gr.refl _, h1, h2.2 h', fun j hj => h5 j (by omega), fun ha => by rw [h] at ha; cases ha⟩
  case loopAll c p id i h h' =>
    obtain ⟨h1, h2, h3, h4, h5, h6⟩ := hp
    simp only [List.length_nil, Nat.add_zero] at h4
    exact ⟨hi, Gr.refl _, h1, h2.1 h', fun j hj => h5 j (by omega), fun ha => by rw [h] at ha; cases ha⟩
  case loop c p id i q sh l x hx =>
    obtain ⟨h1, h2, h3, h4, h5, h6⟩ := hp
    have hci := hi.ctx c h1
    have hlt := made_lt hj h1 hmem
    have hrl := loop_rel hj h1 hmem
    have hlen : (s.data.ad.ctx c).made.length = i := by
      rw [hci.mem_made] at hlt
      rcases Nat.lt_or_ge (s.data.ad.ctx c).made.length i with h | h
      · have := h5 _ h; rw [hci.mem_made] at this; omega
      · omega
    have hin : (s.data.ad.ctx c).ins[i]? = some (q, sh) := by
      have := congrArg (fun l => l[0]?) h3
      simpa using this.symm
    have hdm : ∀ j ∈ (s.data.ad.ctx c).done, j ∈ (s.data.ad.ctx c).made := fun j hjm => by
      have := hdone h1 j
      have := List.count_pos_iff.2 hjm
      exact List.count_pos_iff.1 (by omega)
    have hadd := hci.add (o := if sh then some q else none) hin hlen (by cases sh <;> simp) hrl hdm
    rw [← hx] at hadd
    have hgr : Gr s.data.ad (s.data.ad.upd c x) :=
      Gr.upd rfl rfl (by subst hx; rfl) (by subst hx; rfl) (by subst hx; rfl) (by subst hx; intro j hj; simp [hj]) (by subst hx; exact fun h => h)
    have hxc : (s.data.ad.upd c x).ctx c = x := set_same ..
    have hxm : i ∈ ((s.data.ad.upd c x).ctx c).made := by rw [hxc, hx]; simp
    refine ⟨hi.upd h1 rfl rfl hadd (by subst hx; rfl) (by subst hx; rfl) (by subst hx; exact fun h _ => h) (by subst hx; exact Nat.le_refl _) (fun e h => .inl h),
      hgr, ⟨h1, h2.mono (Ext.refl _) hgr h1, ?_, ?_, ?_, fun ha => Nat.le_trans (h6 ((hgr.any h1).symm.trans ha)) (hgr.proc h1)⟩, rfl, h1, (hgr.has h1).2 ⟨sh, hin⟩, hxm⟩
    · rw [hgr.ins h1]
      have := congrArg List.tail h3
      simpa using this
    · rw [hgr.total h1, ← h4]; simp; omega
    · intro j hj
      rcases Nat.lt_or_ge j i with h | h
      · exact hgr.made h1 (h5 j (by omega))
      · have : j = i := by omega
        subst this; exact hxm
  case next c p id i l x hx =>
    have hpr := proc_le hj hp.1 hmem
    obtain ⟨h1, h2, h3, h4, h5, h6⟩ := hp
    have hci := hi.ctx c h1
    have hmd := h5 i (by omega)
    rw [hci.mem_made] at hmd
    have hn : (s.data.ad.ctx c).processed + (if (s.data.ad.ctx c).any then 1 else 0) ≤ (s.data.ad.ctx c).made.length := by
      have := hci.proc
      split <;> omega
    have hnx := hci.next hn
    rw [← hx] at hnx
    have hgr : Gr s.data.ad (s.data.ad.upd c x) :=
      Gr.upd rfl rfl (by subst hx; rfl) (by subst hx; rfl) (by subst hx; rfl) (by subst hx; exact fun _ h => h) (by subst hx; exact fun h => h)
    refine ⟨hi.upd h1 rfl rfl hnx (by subst hx; rfl) (by subst hx; rfl) (by subst hx; exact fun h _ => h) (by subst hx; exact Nat.le_refl _) (fun e h => .inl h),
      hgr, ?_⟩
    obtain ⟨g1, g2, g3, g4, g5, g6⟩ := loopOk.mono (Ext.refl _) hgr ⟨h1, h2, h3, h4, h5, h6⟩
    refine ⟨g1, g2, g3, g4, g5, fun ha => ?_⟩
    have ha := (hgr.any h1).symm.trans ha
    have := h6 ha
    rw [show (s.data.ad.upd c x).ctx c = x from set_same .., hx]
    simp only [ha, if_true]; omega
  case aIn c p x h hps hx =>
    obtain ⟨h1, h2, h3, h4⟩ := hp
    have hci := hi.ctx c h1
    have hrc := hci.recov h3
    rw [← hx] at hrc
    have hgr : Gr s.data.ad (s.data.ad.upd c x) :=
      Gr.upd rfl rfl (by subst hx; rfl) (by subst hx; rfl) (by subst hx; rfl) (by subst hx; exact fun _ h => h) (by subst hx; exact fun h => h)
    refine ⟨hi.upd h1 rfl rfl hrc (by subst hx; rfl) (by subst hx; rfl) (by subst hx; exact fun h _ => h) (by subst hx; exact Nat.le_refl _) (fun e h => .inl h),
      hgr, ⟨h1, h2.mono (Ext.refl _) hgr h1, hgr.full h1 h4⟩, ?_⟩
    intro c' hc
    obtain rfl := pob_inj hc
    refine ⟨h1, ?_⟩
    rw [show (s.data.ad.upd c x).ctx c = x from set_same ..]
    exact hci.val_any h3 h (hci.full_len h4) hx
  case aNo c p _ => exact ⟨hi, Gr.refl _, hp.1, hp.2.1, hp.2.2.2⟩
  case aSet c p x hx =>
    obtain ⟨h1, h2, h4⟩ := hp
    have hrc := (hi.ctx c h1).pset
    rw [← hx] at hrc
    have hgr : Gr s.data.ad (s.data.ad.upd c x) :=
      Gr.upd rfl rfl (by subst hx; rfl) (by subst hx; rfl) (by subst hx; rfl) (by subst hx; exact fun _ h => h) (by subst hx; exact fun h => h)
    exact ⟨hi.upd h1 rfl rfl hrc (by subst hx; rfl) (by subst hx; rfl) (by subst hx; exact fun h _ => h) (by subst hx; exact Nat.le_refl _) (fun e h => .inl h),
      hgr, h1, h2.mono (Ext.refl _) hgr h1, hgr.full h1 h4⟩
  case aUnl c r h =>
    cases r with
    | ret p =>
      obtain ⟨h1, h2, h4⟩ := hp
      rcases h with h | ⟨e, h⟩
      · exact ⟨hi, Gr.refl _, ⟨h1, h2.1 h, h4⟩, trivial⟩
      · cases h
    | thr e => exact ⟨hi, Gr.refl _, hp, trivial⟩
  case aUnlT c p h => exact ⟨hi, Gr.refl _, ⟨hp.1, hp.2.1.2 h, hp.2.2⟩, trivial⟩
  case gGet c => exact ⟨hi, Gr.refl _, hp, trivial⟩
  case gGot c p h =>
    obtain ⟨p', h1, h2⟩ := gGot_ok hj hst he
    rw [h] at h1; cases h1
    exact ⟨hi, Gr.refl _, hp.1, ⟨h2, fun h => absurd h hp.2.1⟩, hp.2.2⟩
  case relRet c p x hx ha =>
    obtain ⟨h1, h2, h4⟩ := hp
    have hci := hi.ctx c h1
    have hr0 := rel_0 hj h1 hmem
    have hab : (s.data.ad.ctx c).abort = false := by
      cases hh : (s.data.ad.ctx c).abort
      · rfl
      · have := hci.abort hh; omega
    have hrc := hci.release (b := (s.data.ad.ctx c).abort) hr0 (sub_len (hfreed h1)) (.inr h4)
    rw [← hx] at hrc
    have hgr : Gr s.data.ad { s.data.ad.upd c x with wlog := .returned (s.view t).tid c (s.data.ad.ctx c).any ((s.data.ad.ctx c).ins.map (·.1)) p :: s.data.ad.wlog } :=
      Gr.upd rfl rfl (by subst hx; rfl) (by subst hx; rfl) (by subst hx; rfl) (by subst hx; exact fun _ h => h) (by subst hx; exact fun h => h)
    refine ⟨hi.upd h1 rfl rfl hrc (by subst hx; rfl) (by subst hx; rfl) (by subst hx; exact fun h _ => h) (by subst hx; exact Nat.le_succ _) ?_
      (fun h _ _ => .inr ⟨p, h2.1, h2.2 (by subst hx; exact h)⟩), hgr, ?_⟩
    · intro e h
      rcases List.mem_cons.1 h with he | h
      · refine .inr ⟨(s.view t).tid, p, ?_, h2.1, ?_, ?_, ?_⟩
        · subst hx; exact he
        · subst hx; exact h2.2
        · subst hx; exact hab
        · subst hx; exact Nat.le_add_left _ _
      · exact .inl h
    · rcases ha with ⟨h0, rfl⟩ | rfl
      · refine ⟨trivial, ?_⟩
        intro c' hc
        obtain rfl := pob_inj hc
        refine ⟨h1, ?_⟩
        rw [show (s.data.ad.upd c x).ctx c = x from set_same ..]
        refine hrc.last h0 (by subst hx; show (s.data.ad.ctx c).rel + 1 ≤ 1; omega) (by subst hx; exact hfreed h1)
      · trivial
  case relThr c e x hx ha =>
    have h1 : c < s.data.ad.nctx := hp
    have hci := hi.ctx c h1
    have hr0 := rel_0 hj h1 hmem
    have hrc := hci.release (b := true) hr0 (sub_len (hfreed h1)) (.inl rfl)
    rw [← hx] at hrc
    have hgr : Gr s.data.ad (s.data.ad.upd c x) :=
      Gr.upd rfl rfl (by subst hx; rfl) (by subst hx; rfl) (by subst hx; rfl) (by subst hx; exact fun _ h => h) (by subst hx; exact fun _ => rfl)
    refine ⟨hi.upd h1 rfl rfl hrc (by subst hx; rfl) (by subst hx; rfl) (by intro _ h; omega) (by subst hx; exact Nat.le_succ _) (fun e h => .inl h)
      (by subst hx; intro _ h; cases h), hgr, ?_⟩
    rcases ha with ⟨h0, rfl⟩ | rfl
    · refine ⟨trivial, ?_⟩
      intro c' hc
      obtain rfl := pob_inj hc
      refine ⟨h1, ?_⟩
      rw [show (s.data.ad.upd c x).ctx c = x from set_same ..]
      refine hrc.last h0 (by subst hx; show (s.data.ad.ctx c).rel + 1 ≤ 1; omega) (by subst hx; exact hfreed h1)
    · trivial
  case finRet p => exact ⟨hi, Gr.refl _, trivial⟩
  case finThr e => exact ⟨hi, Gr.refl _, trivial⟩
  case kIn c i q => exact ⟨hi, Gr.refl _, hp, trivial⟩
  case kWin c i q x h hr hps hs hx =>
    obtain ⟨⟨h1, h2, h3⟩, h4⟩ := hp
    have hci := hi.ctx c h1
    have hf := hci.fin h2 h3 h4 h
    have hrc := hf.recov h
    have hv := hf.val_any (y := x) h (by simp) (by
      have := hci.proc; have := hci.madeLe; show (s.data.ad.ctx c).made.length = (s.data.ad.ctx c).total; omega) hx
    rw [← hx] at hrc
    have hgr : Gr s.data.ad (s.data.ad.upd c x) :=
      Gr.upd rfl rfl (by subst hx; rfl) (by subst hx; rfl) (by subst hx; rfl) (by subst hx; exact fun _ h => h) (by subst hx; exact fun h => h)
    refine ⟨hi.upd h1 rfl rfl hrc (by subst hx; rfl) (by subst hx; rfl) (by subst hx; exact fun h _ => h) (by subst hx; exact Nat.le_refl _) (fun e h => .inl h),
      hgr, h1, ?_⟩
    intro c' hc
    obtain rfl := pob_inj hc
    refine ⟨h1, ?_⟩
    rw [show (s.data.ad.upd c x).ctx c = x from set_same ..]
    exact hv
  case kFirst c i q x h hr hn hx =>
    obtain ⟨⟨h1, h2, h3⟩, h4⟩ := hp
    have hrc := (hi.ctx c h1).fin h2 h3 h4 h
    rw [← hx] at hrc
    have hgr : Gr s.data.ad (s.data.ad.upd c x) :=
      Gr.upd rfl rfl (by subst hx; rfl) (by subst hx; rfl) (by subst hx; rfl) (by subst hx; exact fun _ h => h) (by subst hx; exact fun h => h)
    exact ⟨hi.upd h1 rfl rfl hrc (by subst hx; rfl) (by subst hx; rfl) (by subst hx; exact fun h _ => h) (by subst hx; exact Nat.le_refl _) (fun e h => .inl h),
      hgr, h1⟩
  case kLate c i q x h hr hx =>
    obtain ⟨⟨h1, h2, h3⟩, h4⟩ := hp
    have hrc := (hi.ctx c h1).late h2 h4 h hr
    rw [← hx] at hrc
    have hgr : Gr s.data.ad (s.data.ad.upd c x) :=
      Gr.upd rfl rfl (by subst hx; rfl) (by subst hx; rfl) (by subst hx; rfl) (by subst hx; exact fun _ h => h) (by subst hx; exact fun h => h)
    exact ⟨hi.upd h1 rfl rfl hrc (by subst hx; rfl) (by subst hx; rfl) (by subst hx; exact fun h _ => h) (by subst hx; exact Nat.le_refl _) (fun e h => .inl h),
      hgr, h1⟩
  case kLast c i q x h hr hx =>
    obtain ⟨⟨h1, h2, h3⟩, h4⟩ := hp
    have hrc := (hi.ctx c h1).one h2 h3 h4 h
    rw [← hx] at hrc
    have hv := hrc.val_all (by subst hx; exact h) hr (by subst hx; exact app_count (hdone h1) (done_lt hj h1 hmem))
    have hgr : Gr s.data.ad (s.data.ad.upd c x) :=
      Gr.upd rfl rfl (by subst hx; rfl) (by subst hx; rfl) (by subst hx; rfl) (by subst hx; exact fun _ h => h) (by subst hx; exact fun h => h)
    refine ⟨hi.upd h1 rfl rfl hrc (by subst hx; rfl) (by subst hx; rfl) (by subst hx; exact fun h _ => h) (by subst hx; exact Nat.le_refl _) (fun e h => .inl h),
      hgr, h1, ?_⟩
    intro c' hc
    obtain rfl := pob_inj hc
    refine ⟨h1, ?_⟩
    rw [show (s.data.ad.upd c x).ctx c = x from set_same ..]
    exact hv
  case kOne c i q x h hr hx =>
    obtain ⟨⟨h1, h2, h3⟩, h4⟩ := hp
    have hrc := (hi.ctx c h1).one h2 h3 h4 h
    rw [← hx] at hrc
    have hgr : Gr s.data.ad (s.data.ad.upd c x) :=
      Gr.upd rfl rfl (by subst hx; rfl) (by subst hx; rfl) (by subst hx; rfl) (by subst hx; exact fun _ h => h) (by subst hx; exact fun h => h)
    exact ⟨hi.upd h1 rfl rfl hrc (by subst hx; rfl) (by subst hx; rfl) (by subst hx; exact fun h _ => h) (by subst hx; exact Nat.le_refl _) (fun e h => .inl h),
      hgr, h1⟩
  case kSet c i x hx =>
    have h1 : c < s.data.ad.nctx := hp
    have hrc := (hi.ctx c h1).pset
    rw [← hx] at hrc
    have hgr : Gr s.data.ad (s.data.ad.upd c x) :=
      Gr.upd rfl rfl (by subst hx; rfl) (by subst hx; rfl) (by subst hx; rfl) (by subst hx; exact fun _ h => h) (by subst hx; exact fun h => h)
    exact ⟨hi.upd h1 rfl rfl hrc (by subst hx; rfl) (by subst hx; rfl) (by subst hx; exact fun h _ => h) (by subst hx; exact Nat.le_refl _) (fun e h => .inl h),
      hgr, h1⟩
  case kAll c i => exact ⟨hi, Gr.refl _, hp⟩
  case kUnl c i => exact ⟨hi, Gr.refl _, hp, trivial⟩
  case kEnd c i x hx =>
    have h1 : c < s.data.ad.nctx := hp
    have hrc := (hi.ctx c h1).ghost (a := (s.data.ad.ctx c).ended ++ [i]) (b := (s.data.ad.ctx c).failed)
    rw [← hx] at hrc
    have hgr : Gr s.data.ad (s.data.ad.upd c x) :=
      Gr.upd rfl rfl (by subst hx; rfl) (by subst hx; rfl) (by subst hx; rfl) (by subst hx; exact fun _ h => h) (by subst hx; exact fun h => h)
    exact ⟨hi.upd h1 rfl rfl hrc (by subst hx; rfl) (by subst hx; rfl) (by subst hx; exact fun h _ => h) (by subst hx; exact Nat.le_refl _) (fun e h => .inl h),
      hgr, trivial⟩
  case kThr c i e x hx =>
    have h1 : c < s.data.ad.nctx := hp
    have hrc := (hi.ctx c h1).ghost (a := (s.data.ad.ctx c).ended) (b := (s.data.ad.ctx c).failed ++ [i])
    rw [← hx] at hrc
    have hgr : Gr s.data.ad (s.data.ad.upd c x) :=
      Gr.upd rfl rfl (by subst hx; rfl) (by subst hx; rfl) (by subst hx; rfl) (by subst hx; exact fun _ h => h) (by subst hx; exact fun h => h)
    exact ⟨hi.upd h1 rfl rfl hrc (by subst hx; rfl) (by subst hx; rfl) (by subst hx; exact fun h _ => h) (by subst hx; exact Nat.le_refl _) (fun e h => .inl h),
      hgr, trivial, trivial⟩
  case kFin e => exact ⟨hi, Gr.refl _, trivial⟩
  case dIn c i q x hx ha =>
    obtain ⟨⟨h1, h2, h3⟩, h4⟩ := hp
    have hci := hi.ctx c h1
    have hfl := freed_lt hj h1 hmem
    have hcnt := app_count (hfreed h1) hfl
    have hlen := sub_len hcnt
    simp only [List.length_append, List.length_singleton] at hlen
    have hrc := hci.free h2 h4 hlen (hrel1 h1)
    rw [← hx] at hrc
    have hgr : Gr s.data.ad (s.data.ad.upd c x) :=
      Gr.upd rfl rfl (by subst hx; rfl) (by subst hx; rfl) (by subst hx; rfl) (by subst hx; exact fun _ h => h) (by subst hx; exact fun h => h)
    refine ⟨hi.upd h1 rfl rfl hrc (by subst hx; rfl) (by subst hx; rfl) (by subst hx; exact fun h _ => h) (by subst hx; exact Nat.le_refl _) (fun e h => .inl h),
      hgr, ?_⟩
    rcases ha with ⟨h0, rfl⟩ | rfl
    · refine ⟨trivial, ?_⟩
      intro c' hc
      obtain rfl := pob_inj hc
      refine ⟨h1, ?_⟩
      rw [show (s.data.ad.upd c x).ctx c = x from set_same ..]
      refine hrc.last h0 (by subst hx; exact hrel1 h1) (by subst hx; exact hcnt)
    · trivial
  case dEnd => exact ⟨hi, Gr.refl _, trivial⟩

/-- The typing of when_all / when_any. -/
def wt (U : WApp α φ δ χ) (u0 : δ) (f0 : φ) : AT (whenApp U) { u := u0 } (.usr f0) where
  toAP := wp α φ δ
  I := WI
  mono he := wp_le he (Gr.refl _)
  wl {d ad q a} _ h hr := by
    cases a with
    | usr a => trivial
    | wk c i q' => obtain ⟨rfl, h⟩ := h; exact ⟨h, hr⟩
  run {d ad a} h t := by
    cases a with
    | usr a => trivial
    | wk c i q => exact h
  runR {d ad t p a} h := by
    cases a with
    | usr a => trivial
    | wk c i q => exact h
  des {d ad a} h t := by
    cases a with
    | usr a => trivial
    | wk c i q => exact h
  gset {d ad q r p} hi hq ho := by
    obtain ⟨h1, h2, h3⟩ := hi.obj q p ho
    exact ⟨h1, fun _ c hc => hq c ((h3 c).1 hc)⟩
  gdtor {d ad q p} hi hq ho := by
    obtain ⟨h1, h2, h3⟩ := hi.obj q p ho
    exact ⟨h1, fun _ c hc => hq c ((h3 c).1 hc)⟩
  gpkg {d ad p r} hi hp := ⟨hp.1, fun h => absurd h hp.2⟩
  app := by
    intro s t ch g rest ad' sa hj he hst hi hp hs
    cases when_wc hs with
    | usr g u a hU =>
      have hgr : Gr s.data.ad { s.data.ad with u := u } := ⟨Nat.le_refl _, fun _ => rfl, fun _ => rfl, fun _ => rfl, fun _ h => h, fun _ h => h, fun _ => Nat.le_refl _, fun _ => Nat.le_refl _, fun _ => rfl⟩
      exact ⟨⟨hi.obj, hi.ctx, hi.log, hi.emp⟩, wp_le (Ext.refl _) hgr, liftW_ok (fun _ _ => trivial) (fun _ _ _ _ => trivial) (fun _ _ => trivial) (fun _ => trivial) wq_mapS _ _⟩
    | wh f d' a hf hW =>
      obtain ⟨h1, h2, h3⟩ := app_goal hj he hst hi hp hW
      exact ⟨h1, wp_le (Ext.refl _) h2, h3⟩
  sync := by
    intro s t f rest d' a hj hst hi hp hs
    have he := hs.ext
    refine ⟨objOk_step hi.obj hs (by rintro q q' rfl; exact hp), fun c hc => (hi.ctx c hc).mono he, ?_, ?_⟩
    · intro t c any ins p h
      obtain ⟨y1, y2, y3⟩ := hi.log t c any ins p h
      exact ⟨y1, y2.mono he (Gr.refl _) y1, y3⟩
    · intro c h1 h2 h3 h4
      obtain ⟨p, h5, h6⟩ := hi.emp c h1 h2 h3 h4
      exact ⟨p, h5.mono he, rdy_mono he h6⟩
  throw := by
    intro s t g g' rest e hj hst he hp h
    rcases when_throw h with ⟨x, y, rfl, rfl⟩ | h
    · trivial
    · cases g <;> simp only [wthrow, Option.some.injEq, reduceCtorEq] at h <;> subst h <;> first | exact hp.1 | exact hp

theorem wt_ok {s : WSt α φ δ} (h : WR U u0 f0 s) : (wt U u0 f0).ty.Ok s :=
  (wt U u0 f0).sound ⟨by intro q p h; simp at h, fun c hc => by simp at hc, fun t c any ins p h => by simp at h, fun c hc => by simp at hc⟩ trivial h

end
end When
end Itc
