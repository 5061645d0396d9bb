import Verif.When.Cases
import Verif.Sync.ATy

/-!
# Contexts in use (proof infrastructure, no claims)
-/
namespace Itc
namespace When
open Core Sync
section
variable {α φ δ χ : Type}

/-- The context that a program point belongs to. -/
def WFrame.cx : WFrame φ → Option Nat
  | .mkS c => some c
  | .mkG c => some c
  | .mkD c => some c
  | .wGet c _ => some c
  | .wGot c _ => some c
  | .wLoop c _ _ _ _ => some c
  | .wNext c _ _ _ _ => some c
  | .aIn c _ => some c
  | .aSet c _ => some c
  | .aUnl c _ => some c
  | .gGet c => some c
  | .gGot c => some c
  | .rel c _ => some c
  | .kIn c _ _ => some c
  | .kBody c _ _ => some c
  | .kSet c _ => some c
  | .kAll c _ => some c
  | .kUnl c _ => some c
  | .kEnd c _ => some c
  | .kThr c _ _ => some c
  | .dIn c _ _ => some c
  | _ => none

theorem pob_inj {c c' : Nat} (h : pob c = pob c') : c = c' := by simp only [pob] at h; omega

theorem mapW_ok {F : Nat → WFrame φ → Prop} {L : WTask α → Prop} (h1 : ∀ t g, F t (.usr g)) (h2 : ∀ a, L (.usr a)) (a : Api α φ) :
    ApiOK F L (mapW a) := by
  cases a <;> simp only [mapW, ApiOK] <;> first | trivial | exact h2 _ | skip
  · intro f hf u
    simp only [Option.mem_def, Option.map_eq_some_iff] at hf
    obtain ⟨g, -, rfl⟩ := hf
    exact h1 _ _
  · exact fun u => h1 _ _

theorem mapS_ok {W : Nat → WTask α → Prop} {L : WTask α → Prop} {Q : SApi (WTask α) → Prop} (h1 : ∀ q a, W q (.usr a)) (h2 : ∀ a, L (.usr a))
    (h3 : ∀ a : SApi α, Q (mapS a)) (a : SApi α) : sq W L Q (fun _ _ => True) (fun _ => L) L (mapS a) := by
  cases a <;> simp only [mapS, sq] <;> first | exact h2 _ | exact ⟨h2 _, trivial⟩ | exact h3 (.lock _) | exact h3 (.unlock _) | exact h3 (.cvWait _ _) | skip
  case futThen p _ _ _ _ => cases p <;> first | trivial | exact h1 _ _
  all_goals first
    | exact h3 (.cvWaitFor _ _ _)
    | exact h3 (.notifyOne _)
    | exact h3 (.notifyAll _)
    | exact h3 (.mLock _)
    | exact h3 (.mTry _)
    | exact h3 (.mUnlock _)
    | exact h3 (.promNew _ _)
    | exact h3 (.promDtor _)
    | exact h3 (.promMove _ _)
    | exact h3 (.promSet _ _)
    | exact h3 (.getFuture _)
    | exact h3 (.futWait _)
    | exact h3 (.futWaitFor _ _)
    | exact h3 (.futGet _)
    | exact h3 (.isReady _)
    | exact h3 (.hasError _)
    | exact h3 (.package _ _)

theorem liftW_ok {W : Nat → WTask α → Prop} {L : WTask α → Prop} {F : Nat → WFrame φ → Prop} {Q : SApi (WTask α) → Prop}
    (hf : ∀ t g, F t (.usr g)) (hw : ∀ t tup any l, F t (.wIn tup any l)) (h1 : ∀ q a, W q (.usr a)) (h2 : ∀ a, L (.usr a))
    (h3 : ∀ a : SApi α, Q (mapS a)) (t : Nat) (a : WAct α φ) : saOk W L F Q (fun _ _ => True) (fun _ _ => L) L t (liftW a) := by
  cases a <;> simp only [liftW, saOk]
  · exact hf _ _
  · exact ⟨hf _ _, hf _ _⟩
  · exact ⟨hf _ _, mapW_ok hf h2 _⟩
  · exact ⟨hf _ _, mapS_ok h1 h2 h3 _⟩
  · exact ⟨hw _ _ _ _, hf _ _⟩

/-- The object in storage `q` has a state that was made there, if the storage belongs to a context. -/
def objOk (d : SData (WTask α)) : Prop :=
  ∀ q p, d.obj q = some p → p < d.nst ∧ (d.st p).owner = .usr ∧ ∀ c, (d.st p).home = pob c ↔ q = pob c

theorem objOk_step {run destroy : WTask α → WFrame φ} {v : View} {d d' : SData (WTask α)} {rv : Val} {f : SFrame (WTask α) (WFrame φ)}
    {a : Act (STask (WTask α)) (SFrame (WTask α) (WFrame φ))} (h : objOk d) (hs : SS run destroy v d rv f d' a)
    (hm : ∀ q q', f = .poMove q q' → (∀ c, q ≠ pob c) ∧ ∀ c, q' ≠ pob c) : objOk d' := by
  have he := hs.ext
  intro q p hp
  rcases hs.obj q with h1 | h1 | ⟨b, -, h1, h2, h3, h4⟩ | ⟨q', h1, h2⟩
  · obtain ⟨x1, x2, x3⟩ := h q p (h1 ▸ hp)
    exact ⟨lt_mono he x1, (he.owner x1).trans x2, by rw [he.home x1]; exact x3⟩
  · rw [h1] at hp; cases hp
  · rw [h1] at hp; cases hp
    exact ⟨by omega, h4, by rw [h3]; exact fun c => Iff.rfl⟩
  · obtain ⟨y1, y2⟩ := hm q q' h1
    obtain ⟨x1, x2, x3⟩ := h q' p (h2 ▸ hp)
    refine ⟨lt_mono he x1, (he.owner x1).trans x2, ?_⟩
    rw [he.home x1]
    exact fun c => ⟨fun h => absurd ((x3 c).1 h) (y2 c), fun h => absurd h (y1 c)⟩

/-- Promises of contexts stay where they are. -/
def q0 : SApi (WTask α) → Prop
  | .promMove q q' => (∀ c, q ≠ pob c) ∧ ∀ c, q' ≠ pob c
  | _ => True

theorem q0_mapS (a : SApi α) : q0 (mapS a) := by
  cases a <;> first | trivial | skip
  exact ⟨fun c h => by unfold pob at h; omega, fun c h => by unfold pob at h; omega⟩

/-- Contexts of frames and lambdas exist. -/
def ty0 (U : WApp α φ δ χ) (u0 : δ) (f0 : φ) : AT (whenApp U) { u := u0 } (.usr f0) where
  W _ ad _ a := match a with
    | .usr _ => True
    | .wk c _ _ => c < ad.nctx
  L _ ad a := match a with
    | .usr _ => True
    | .wk c _ _ => c < ad.nctx
  F _ ad _ f := ∀ c ∈ f.cx, c < ad.nctx
  Q _ _ a := q0 a
  G _ _ _ _ := True
  I d ad := (∀ c, ad.nctx ≤ c → ad.ctx c = {}) ∧ objOk d
  mono _ := ⟨id, id, id, id, id, id, id, id⟩
  wl {d ad q a} _ h _ := by cases a <;> exact h
  run {d ad a} h t := by
    cases a with
    | usr a => simp [whenApp, WFrame.cx]
    | wk c i q => simpa [whenApp, WFrame.cx] using h
  runR {d ad t p a} h := by
    cases a with
    | usr a => simp [whenApp, WFrame.cx]
    | wk c i q => simpa [whenApp, WFrame.cx] using h
  des {d ad a} h t := by
    cases a with
    | usr a => simp [whenApp, WFrame.cx]
    | wk c i q => simpa [whenApp, WFrame.cx] using h
  gset _ _ _ := trivial
  gdtor _ _ _ := trivial
  gpkg _ _ := trivial
  app := by
    intro s t ch g rest ad' sa hj he hst hi hp hs
    generalize s.data.ad = d at *
    obtain ⟨hi, ho⟩ := hi
    have le : ∀ {d' : WData δ}, d.nctx ≤ d'.nctx → AP.Le (α := WTask α) (φ := WFrame φ) (δ := WData δ) {
        W := fun _ ad _ a => match a with | .usr _ => True | .wk c _ _ => c < ad.nctx
        L := fun _ ad a => match a with | .usr _ => True | .wk c _ _ => c < ad.nctx
        F := fun _ ad _ f => ∀ c ∈ f.cx, c < ad.nctx
        Q := fun _ _ a => q0 a
        G := fun _ _ _ _ => True } s.data.sd d s.data.sd d' := by
      intro d' h
      have hl : ∀ {a : WTask α}, (match a with | .usr _ => True | .wk c _ _ => c < d.nctx) → match a with | .usr _ => True | .wk c _ _ => c < d'.nctx := by
        intro a h'; cases a <;> first | trivial | exact Nat.lt_of_lt_of_le h' h
      refine ⟨hl, hl, ?_, id, id, id, hl, hl⟩
      · intro t g h' c hc; exact Nat.lt_of_lt_of_le (h' c hc) h
    cases when_wc hs with
    | usr g u a hU =>
      exact ⟨⟨hi, ho⟩, le (Nat.le_refl _), liftW_ok (by simp [WFrame.cx]) (by simp [WFrame.cx]) (fun _ _ => trivial) (fun _ => trivial) q0_mapS _ _⟩
    | wh f d' a hf hW =>
      have hup : ∀ c x, c < d.nctx → ∀ c', d.nctx ≤ c' → (d.upd c x).ctx c' = {} := by
        intro c x hc c' hc'
        show set d.ctx c x c' = _
        rw [set_ne _ _ (by omega)]; exact hi c' hc'
      clear hs
      cases hW
      case wIn any l x ins h =>
        refine ⟨⟨?_, ho⟩, le (Nat.le_succ _), ?_, trivial⟩
        · intro c hc
          have hc : d.nctx + 1 ≤ c := hc
          show set d.ctx _ _ c = _
          rw [set_ne _ _ (by omega)]; exact hi c (by omega)
        · simp [WFrame.cx]
      case wIn0 tup any l h =>
        refine ⟨⟨?_, ho⟩, le (Nat.le_succ _), ?_, trivial⟩
        · intro c hc
          have hc : d.nctx + 1 ≤ c := hc
          show set d.ctx _ _ c = _
          rw [set_ne _ _ (by omega)]; exact hi c (by omega)
        · simp [WFrame.cx]
      case wInT any l x ins h =>
        refine ⟨⟨?_, ho⟩, le (Nat.le_succ _), ?_, trivial⟩
        · intro c hc
          have hc : d.nctx + 1 ≤ c := hc
          show set d.ctx _ _ c = _
          rw [set_ne _ _ (by omega)]; exact hi c (by omega)
        · simp [WFrame.cx]
      all_goals first
        | exact ⟨⟨hi, ho⟩, le (Nat.le_refl _), trivial⟩
        | exact ⟨⟨hi, ho⟩, le (Nat.le_refl _), hp⟩
        | exact ⟨⟨hi, ho⟩, le (Nat.le_refl _), hp, trivial⟩
        | exact ⟨⟨hi, ho⟩, le (Nat.le_refl _), by simp [WFrame.cx], trivial⟩
        | exact ⟨⟨hup _ _ (hp _ rfl), ho⟩, le (Nat.le_refl _), hp⟩
        | exact ⟨⟨hup _ _ (hp _ rfl), ho⟩, le (Nat.le_refl _), hp, trivial⟩
        | exact ⟨⟨hup _ _ (hp _ rfl), ho⟩, le (Nat.le_refl _), hp, hp _ rfl⟩
        | (rename_i ha; refine ⟨⟨hup _ _ (hp _ rfl), ho⟩, le (Nat.le_refl _), ?_⟩; rcases ha with ⟨-, rfl⟩ | rfl <;> simp [saOk, WFrame.cx, sq, q0])
  sync {s t f rest d' a} hj hst hi hp hs := ⟨hi.1, objOk_step hi.2 hs (by rintro q q' rfl; exact hp)⟩
  throw := by
    intro s t g g' rest e hj hst he hp h
    rcases when_throw h with ⟨x, y, rfl, rfl⟩ | h
    · simp [WFrame.cx]
    · cases g <;> simp only [wthrow, Option.some.injEq, reduceCtorEq] at h <;> subst h <;> exact hp

variable {U : WApp α φ δ χ} {u0 : δ} {f0 : φ} {s : WSt α φ δ}

theorem ty0_ok (h : WR U u0 f0 s) : (ty0 U u0 f0).ty.Ok s :=
  (ty0 U u0 f0).sound ⟨fun _ _ => rfl, by intro q p h; simp at h⟩ (by simp [ty0, WFrame.cx]) h

theorem fresh (h : WR U u0 f0 s) {c : Nat} (hc : s.data.ad.nctx ≤ c) : s.data.ad.ctx c = {} := (ty0_ok h).data.i.1 c hc

theorem obj_ok (h : WR U u0 f0 s) : objOk s.data.sd := (ty0_ok h).data.i.2

theorem cx_lt (h : WR U u0 f0 s) {t c : Nat} {f : WFrame φ} (hm : .client (.app f) ∈ s.stk t) (hc : c ∈ f.cx) : c < s.data.ad.nctx :=
  (ty0_ok h).fr t _ hm c hc

end
end When
end Itc
