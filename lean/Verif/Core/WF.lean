import Verif.Core.Free
import Mathlib.Data.List.Basic
import Mathlib.Data.List.Count

/-! # Well-formedness of reachable states (proof infrastructure) -/
namespace Itc
namespace Core
section
variable {τ φ δ χ : Type}

theorem upd_app {β : Type} (f : Nat → β) (a : Nat) (b : β) (x : Nat) : upd f a b x = if x = a then b else f x := rfl

/-- Context `c` is in the registry. -/
def InReg (s : St τ φ δ) (c : Nat) : Prop := ∃ i, (i, c) ∈ s.contexts

structure RegOK (s : St τ φ δ) : Prop where
  nod : (s.contexts.map (·.1)).Nodup
  mem : ∀ i c, (i, c) ∈ s.contexts → c < s.nctx ∧ (s.ctxs c).id = i ∧ (s.ctxs c).life = .alive
  ids : ∀ c, c < s.nctx → 0 < (s.ctxs c).id ∧ (s.ctxs c).id ≤ s.gen
  inj : ∀ c d, c < s.nctx → d < s.nctx → (s.ctxs c).id = (s.ctxs d).id → c = d
  idm : ∀ n i, s.idMap n = some i ↔ ∃ c, (i, c) ∈ s.contexts ∧ (s.ctxs c).native = n
  dfl : ∀ c, s.nctx ≤ c → s.ctxs c = {}

theorem RegOK.soft {s s' : St τ φ δ} (h : RegOK s) (hreg : SameReg s s')
    (hsame : ∀ c, (s'.ctxs c).id = (s.ctxs c).id ∧ (s'.ctxs c).native = (s.ctxs c).native)
    (hlife : ∀ c, InReg s c → (s.ctxs c).life = .alive → (s'.ctxs c).life = .alive)
    (hdfl : ∀ c, s.nctx ≤ c → s'.ctxs c = s.ctxs c) : RegOK s' := by
  obtain ⟨h1, h2, h3, h4⟩ := hreg
  constructor
  · rw [h3]; exact h.nod
  · intro i c hc; rw [h3] at hc; rw [h4, (hsame c).1]
    obtain ⟨a, b, e⟩ := h.mem i c hc
    exact ⟨a, b, hlife c ⟨i, hc⟩ e⟩
  · intro c hc; rw [h4] at hc; rw [(hsame c).1, h1]; exact h.ids c hc
  · intro c d hc hd; rw [h4] at hc hd; rw [(hsame c).1, (hsame d).1]; exact h.inj c d hc hd
  · intro n i; rw [h2, h.idm, h3]; simp only [(hsame _).2]
  · intro c hc; rw [h4] at hc; rw [hdfl c hc]; exact h.dfl c hc

theorem find_some {s : St τ φ δ} {i c : Nat} (h : s.find i = some c) : (i, c) ∈ s.contexts := by
  simp only [St.find, Option.map_eq_some_iff] at h
  obtain ⟨⟨j, d⟩, h1, h2⟩ := h
  have := List.find?_some h1
  have hm := List.mem_of_find?_eq_some h1
  simp at this h2
  subst this h2
  exact hm

theorem find_none {s : St τ φ δ} {i : Nat} (h : s.find i = none) (c : Nat) : (i, c) ∉ s.contexts := by
  simp only [St.find, Option.map_eq_none_iff, List.find?_eq_none] at h
  intro hm
  have := h _ hm
  simp at this

theorem RegOK.find_of_mem {s : St τ φ δ} (h : RegOK s) {i c : Nat} (hm : (i, c) ∈ s.contexts) :
    s.find i = some c := by
  cases hf : s.find i with
  | none => exact absurd hm (find_none hf c)
  | some d =>
    have hd := find_some hf
    obtain ⟨a, b, -⟩ := h.mem _ _ hm
    obtain ⟨a', b', -⟩ := h.mem _ _ hd
    rw [h.inj c d a a' (b.trans b'.symm)]

theorem RegOK.find_iff {s : St τ φ δ} (h : RegOK s) {i c : Nat} : s.find i = some c ↔ (i, c) ∈ s.contexts :=
  ⟨find_some, h.find_of_mem⟩

/-- `c` is registered iff the registry maps its id to it. -/
theorem RegOK.inReg_iff {s : St τ φ δ} (h : RegOK s) {c : Nat} : InReg s c ↔ ((s.ctxs c).id, c) ∈ s.contexts :=
  ⟨fun ⟨i, hi⟩ => (h.mem i c hi).2.1 ▸ hi, fun hi => ⟨_, hi⟩⟩

theorem RegOK.regId_cases {s : St τ φ δ} (h : RegOK s) (n : Nat) :
    (∃ c, (s.regId n, c) ∈ s.contexts ∧ (s.ctxs c).native = n ∧ s.regGen n = s.gen) ∨
    (s.idMap n = none ∧ s.regId n = s.gen + 1 ∧ s.regGen n = s.gen + 1) := by
  cases hi : s.idMap n with
  | none => right; simp [St.regId, St.regGen, hi]
  | some i =>
    left
    obtain ⟨c, hc, hn⟩ := (h.idm n i).1 hi
    have hpos := (h.ids c (h.mem i c hc).1).1
    rw [(h.mem i c hc).2.1] at hpos
    have : i ≠ 0 := by omega
    refine ⟨c, ?_, hn, ?_⟩ <;> simp [St.regId, St.regGen, hi, this, hc]

theorem RegOK.find_regId_none {s : St τ φ δ} (h : RegOK s) {n : Nat} (hf : s.find (s.regId n) = none) :
    s.idMap n = none ∧ s.regId n = s.gen + 1 ∧ s.regGen n = s.gen + 1 := by
  rcases h.regId_cases n with ⟨c, hc, -, -⟩ | h'
  · exact absurd hc (find_none hf c)
  · exact h'

theorem RegOK.find_regId_some {s : St τ φ δ} (h : RegOK s) {n c : Nat} (hf : s.find (s.regId n) = some c) :
    (s.regId n, c) ∈ s.contexts ∧ (s.ctxs c).native = n ∧ s.regGen n = s.gen := by
  rcases h.regId_cases n with ⟨d, hd, hn, hg⟩ | ⟨-, h2, -⟩
  · have := h.find_of_mem hd
    rw [hf] at this
    obtain rfl := Option.some.inj this
    exact ⟨hd, hn, hg⟩
  · have hm := find_some hf
    obtain ⟨a, b, -⟩ := h.mem _ _ hm
    have := (h.ids c a).2
    omega

theorem RegOK.regNew {s s' : St τ φ δ} (h : RegOK s) {n : Nat} {x : Ctx τ} (hf : s.find (s.regId n) = none)
    (hgen : s'.gen = s.regGen n) (hidm : s'.idMap = upd s.idMap n (some (s.regId n)))
    (hcon : s'.contexts = s.contexts ++ [(s.regId n, s.nctx)]) (hn : s'.nctx = s.nctx + 1)
    (hctx : s'.ctxs = upd s.ctxs s.nctx x) (hx : x.native = n ∧ x.id = s.regId n ∧ x.life = .alive) : RegOK s' := by
  obtain ⟨hm, hid, hg⟩ := h.find_regId_none hf
  have hlt : ∀ i c, (i, c) ∈ s.contexts → c < s.nctx ∧ i ≤ s.gen := fun i c hc => by
    have := h.mem i c hc
    have := h.ids c this.1
    omega
  constructor
  · rw [hcon, List.map_append, List.nodup_append]
    refine ⟨h.nod, by simp, ?_⟩
    simp only [List.mem_map, List.map_cons, List.map_nil, List.mem_singleton]
    rintro _ ⟨⟨i, c⟩, hc, rfl⟩ _ rfl
    have := hlt _ _ hc
    simp; omega
  · intro i c hc
    rw [hcon, List.mem_append, List.mem_singleton] at hc
    rw [hn, hctx]
    rcases hc with hc | hc
    · have := hlt _ _ hc
      rw [upd_ne _ _ (by omega)]
      have := h.mem i c hc
      exact ⟨by omega, this.2⟩
    · obtain ⟨rfl, rfl⟩ := Prod.mk.inj hc
      simp [hx]
  · intro c hc
    rw [hn] at hc
    rw [hctx, hgen, hg]
    by_cases hcn : c = s.nctx
    · subst hcn; simp [hx, hid]
    · rw [upd_ne _ _ hcn]
      have := h.ids c (by omega)
      omega
  · intro c d hc hd
    rw [hn] at hc hd
    rw [hctx]
    by_cases hcn : c = s.nctx <;> by_cases hdn : d = s.nctx
    · intro; omega
    · subst hcn
      rw [upd_ne _ _ hdn]
      have := h.ids d (by omega)
      simp [hx, hid]; omega
    · subst hdn
      rw [upd_ne _ _ hcn]
      have := h.ids c (by omega)
      simp [hx, hid]; omega
    · rw [upd_ne _ _ hcn, upd_ne _ _ hdn]
      exact h.inj c d (by omega) (by omega)
  · intro m i
    rw [hidm, hcon, hctx]
    have key : (∃ c, (i, c) ∈ s.contexts ++ [(s.regId n, s.nctx)] ∧ (upd s.ctxs s.nctx x c).native = m) ↔
        (∃ c, (i, c) ∈ s.contexts ∧ (s.ctxs c).native = m) ∨ (i = s.regId n ∧ m = n) := by
      constructor
      · rintro ⟨c, hc, hnat⟩
        rw [List.mem_append, List.mem_singleton] at hc
        rcases hc with hc | hc
        · have := hlt _ _ hc
          rw [upd_ne _ _ (by omega)] at hnat
          exact .inl ⟨c, hc, hnat⟩
        · obtain ⟨rfl, rfl⟩ := Prod.mk.inj hc
          simp [hx] at hnat
          exact .inr ⟨rfl, hnat.symm⟩
      · rintro (⟨c, hc, hnat⟩ | ⟨rfl, rfl⟩)
        · have := hlt _ _ hc
          exact ⟨c, by simp [hc], by rw [upd_ne _ _ (by omega)]; exact hnat⟩
        · exact ⟨s.nctx, by simp, by simp [hx]⟩
    rw [key, ← h.idm]
    by_cases hmn : m = n
    · subst hmn; simp [hm]; exact eq_comm
    · simp [upd_ne _ _ hmn, hmn]
  · intro c hc
    rw [hn] at hc
    rw [hctx, upd_ne _ _ (by omega)]
    exact h.dfl c (by omega)

theorem RegOK.unreg {s s' : St τ φ δ} (h : RegOK s) {i c : Nat} (hf : s.find i = some c)
    (hgen : s'.gen = s.gen) (hn : s'.nctx = s.nctx) (hidm : s'.idMap = upd s.idMap (s.ctxs c).native none)
    (hcon : s'.contexts = s.contexts.filter (fun p => !(p.1 == i)))
    (hsame : ∀ c, (s'.ctxs c).id = (s.ctxs c).id ∧ (s'.ctxs c).native = (s.ctxs c).native ∧
      (s'.ctxs c).life = (s.ctxs c).life)
    (hdfl : ∀ c, s.nctx ≤ c → s'.ctxs c = s.ctxs c) : RegOK s' := by
  have hm := find_some hf
  have hmem : ∀ j d, (j, d) ∈ s'.contexts ↔ (j, d) ∈ s.contexts ∧ j ≠ i := by
    intro j d; rw [hcon]; simp
  constructor
  · rw [hcon]
    exact h.nod.sublist (List.filter_sublist.map _)
  · intro j d hd
    rw [hmem] at hd
    rw [hn, (hsame d).1, (hsame d).2.2]
    exact h.mem j d hd.1
  · intro d hd; rw [hn] at hd; rw [(hsame d).1, hgen]; exact h.ids d hd
  · intro d e hd he; rw [hn] at hd he; rw [(hsame d).1, (hsame e).1]; exact h.inj d e hd he
  · intro m j
    rw [hidm]
    simp only [hmem, (hsame _).2.1]
    by_cases hmn : m = (s.ctxs c).native
    · subst hmn
      simp only [upd_same]
      constructor
      · intro hh; simp at hh
      · rintro ⟨d, ⟨hd, hj⟩, hnat⟩
        exfalso
        have h1 := (h.idm _ j).2 ⟨d, hd, hnat⟩
        have h2 := (h.idm _ i).2 ⟨c, hm, rfl⟩
        rw [h1] at h2
        exact hj (Option.some.inj h2)
    · rw [upd_ne _ _ hmn, h.idm]
      constructor
      · rintro ⟨d, hd, hnat⟩
        refine ⟨d, ⟨hd, ?_⟩, hnat⟩
        rintro rfl
        obtain ⟨a, b, -⟩ := h.mem _ _ hd
        obtain ⟨a', b', -⟩ := h.mem _ _ hm
        rw [h.inj d c a a' (b.trans b'.symm)] at hnat
        exact hmn hnat.symm
      · rintro ⟨d, ⟨hd, -⟩, hnat⟩
        exact ⟨d, hd, hnat⟩
  · intro d hd; rw [hn] at hd; rw [hdfl d hd]; exact h.dfl d hd

/-! ## Frames -/

theorem plain_holds {f : Frame τ φ} (h : f.plain = true) (c : Nat) : f.holds c = false := by
  cases f with
  | client f => rfl
  | core f => cases f <;> first | rfl | simp [Frame.plain] at h

theorem plain_task {f : Frame τ φ} (h : f.plain = true) (c : Nat) : f.task c = false := by
  cases f with
  | client f => rfl
  | core f => cases f <;> first | rfl | simp [Frame.plain] at h

theorem plain_unreg {f : Frame τ φ} (h : f.plain = true) : f.isUnreg = false := by
  cases f with
  | client f => rfl
  | core f => cases f <;> first | rfl | simp [Frame.plain] at h

theorem plain_leaf {f : Frame τ φ} (h : f.plain = true) : f.leaf = false := by
  cases f with
  | client f => rfl
  | core f => cases f <;> first | rfl | simp [Frame.plain] at h

theorem isUnreg_eq {f : Frame τ φ} (h : f.isUnreg = true) : f = .core .unregClear := by
  cases f with
  | client f => simp [Frame.isUnreg] at h
  | core f => cases f <;> first | rfl | simp [Frame.isUnreg] at h

/-- Thread `t` is inside `unregister_this_thread`, past the point where its context `c` left the registry. -/
def Leaving (s : St τ φ δ) (t c : Nat) : Prop :=
  ((s.ctxs c).life ≠ .alive ∧ Frame.core .unregClear ∈ s.stk t) ∨
  (∃ rest, s.stk t = .core .unregClear :: rest) ∨
  (∃ f v rest, s.stk t = .core (.release c f v) :: .core .unregClear :: rest)

structure WF (s : St τ φ δ) : Prop extends RegOK s where
  free : FreeOK s
  dl : ∀ t f c, f ∈ s.stk t → f.dl c = true → c < s.nctx ∧ (s.ctxs c).life ≠ .alive
  hol : ∀ c t, (s.ctxs c).holders.count t = (s.stk t).countP (Frame.holds c)
  alv : ∀ c, c < s.nctx → (s.ctxs c).life = .alive → InReg s c ∨ (s.ctxs c).holders ≠ []
  ded : ∀ c, (s.ctxs c).life ≠ .alive → (s.ctxs c).holders = [] ∧ (s.ctxs c).pend = []
  tail : ∀ t f, f ∈ (s.stk t).tail → f.leaf = false
  regd : ∀ t c rest, s.stk t = .core (.regDone c true) :: rest → (s.ctxs c).native = t ∧ InReg s c
  loc : ∀ t c, s.loc t = some c → c < s.nctx ∧ (s.ctxs c).native = t ∧ (InReg s c ∨ Leaving s t c)
  tsk : ∀ t f c, f ∈ s.stk t → f.task c = true →
    c < s.nctx ∧ (s.ctxs c).native = t ∧ (InReg s c ∨ Ev.nestedUnreg t c ∈ s.log)
  prk : ∀ t c dl rest, s.stk t = .core (.parked c dl) :: rest → s.loc t = some c

theorem WF.init (d : δ) (f : φ) : WF (Core.init d f : St τ φ δ) where
  nod := by simp [Core.init]
  mem := by simp [Core.init]
  ids := by simp [Core.init]
  inj := by simp [Core.init]
  idm := by simp [Core.init]
  dfl := by simp [Core.init]
  free := FreeOK.init d f
  dl := by
    intro t f' c hf hd
    by_cases h : t = 0
    · subst h; simp [Core.init, St.stk] at hf; subst hf; simp [Frame.dl] at hd
    · simp [Core.init, St.stk, upd_ne _ _ h] at hf
  hol := by
    intro c t
    by_cases h : t = 0
    · subst h; simp [Core.init, St.stk, Frame.holds]
    · simp [Core.init, St.stk, upd_ne _ _ h]
  alv := by simp [Core.init]
  ded := by simp [Core.init]
  tail := by
    intro t f' hf
    by_cases h : t = 0
    · subst h; simp [Core.init, St.stk] at hf
    · simp [Core.init, St.stk, upd_ne _ _ h] at hf
  regd := by
    intro t c rest hs
    by_cases h : t = 0
    · subst h; simp [Core.init, St.stk] at hs
    · simp [Core.init, St.stk, upd_ne _ _ h] at hs
  loc := by
    intro t c hs
    by_cases h : t = 0
    · subst h; simp [Core.init, St.loc] at hs
    · simp [Core.init, St.loc, upd_ne _ _ h] at hs
  tsk := by
    intro t f' c hf hd
    by_cases h : t = 0
    · subst h; simp [Core.init, St.stk] at hf; subst hf; simp [Frame.task] at hd
    · simp [Core.init, St.stk, upd_ne _ _ h] at hf
  prk := by
    intro t c dl rest hs
    by_cases h : t = 0
    · subst h; simp [Core.init, St.stk] at hs
    · simp [Core.init, St.stk, upd_ne _ _ h] at hs

/-! ## The task queue -/

theorem pop_some {x y : Ctx τ} {k : τ} (h : x.pop = some (k, y)) :
    x.pend = k :: y.pend ∧ y.depth = x.depth + 1 ∧ y.native = x.native ∧ y.id = x.id ∧ y.wakeup = x.wakeup ∧
    y.cv = x.cv ∧ y.exit = x.exit ∧ y.holders = x.holders ∧ y.life = x.life := by
  unfold Ctx.pop at h
  split at h
  · rename_i k' hk
    obtain ⟨rfl, rfl⟩ := Prod.mk.inj (Option.some.inj h)
    have hp : x.prepare.pend = x.pend := by
      unfold Ctx.prepare
      split
      · rename_i hc
        simp at hc
        simp [Ctx.pend, List.drop_eq_nil_of_le hc.1]
      · rfl
    refine ⟨?_, ?_, ?_⟩
    · rw [← hp]
      simp only [Ctx.pend]
      have := List.getElem?_eq_some_iff.1 hk
      obtain ⟨hlt, he⟩ := this
      rw [List.drop_eq_getElem_cons hlt, he]
      rfl
    · unfold Ctx.prepare; split <;> rfl
    · unfold Ctx.prepare; split <;> simp
  · exact absurd h (by simp)

theorem pop_none {x : Ctx τ} : x.pop = none ↔ x.pend = [] := by
  unfold Ctx.pop
  constructor
  · intro h
    split at h
    · exact absurd h (by simp)
    · rename_i hk
      rw [List.getElem?_eq_none_iff] at hk
      unfold Ctx.prepare at hk
      split at hk
      · rename_i hc
        simp at hc hk
        exact absurd hk hc.2
      · rename_i hc
        have hle : x.proc.length ≤ x.idx := by
          by_contra hlt
          omega
        simp at hc
        simp [Ctx.pend, List.drop_eq_nil_of_le hle, hc hle]
  · intro h
    simp only [Ctx.pend, List.append_eq_nil_iff, List.drop_eq_nil_iff] at h
    have hp : x.prepare = x := by simp [Ctx.prepare, h.2]
    rw [hp, List.getElem?_eq_none h.1]

@[simp] theorem pend_wakeup (x : Ctx τ) (w : Bool) : ({ x with wakeup := w } : Ctx τ).pend = x.pend := rfl

/-! ## Preservation -/
set_option tactic.hygienic false

theorem countP_plain {l : List (Frame τ φ)} (h : ∀ f ∈ l, f.plain = true) (c : Nat) :
    l.countP (Frame.holds c) = 0 := by
  rw [List.countP_eq_zero]
  intro f hf; simp [plain_holds (h f hf)]

theorem inReg_same {s s' : St τ φ δ} (h : s'.contexts = s.contexts) (c : Nat) : InReg s' c ↔ InReg s c := by
  simp [InReg, h]

theorem WF.hol' {C : Client τ φ δ χ} {s s' : St τ φ δ} (h : WF s) {t : Nat} (he : Eff C s t s') (c u : Nat) :
    (s'.ctxs c).holders.count u = (s'.stk u).countP (Frame.holds c) := by
  have h0 := h.hol c u
  have h1 := h.hol c t
  have hp := @plain_holds τ φ
  cases he
  case ctl =>
    have h2 := countP_plain hnewp c
    rw [hctx, hstk]
    grind [upd_app, Frame.holds]
  case freed =>
    have h2 := countP_plain hnewp c
    rw [hctx, hstk]
    grind [upd_app, Frame.holds]
  case spawn =>
    have h2 : s.stk n = [] := (h.free n (by simp [hfree])).1
    have h3 := h.hol c n
    rw [hctx, hstk]
    grind [upd_app, Frame.holds]
  case regNew =>
    have h2 := h.dfl s.nctx (Nat.le_refl _)
    have h3 := h.hol s.nctx u
    rw [h2] at h3
    rw [hctx, hstk]
    by_cases c = s.nctx
    · subst c
      rw [h2] at h1
      grind [upd_app, Frame.holds]
    · grind [upd_app, Frame.holds]
  case start =>
    obtain ⟨-, -, -, -, -, -, -, h2, -⟩ := pop_some hpop
    rw [hctx, hstk]
    grind [upd_app, Frame.holds]
  all_goals
    (try rw [hctx]); (try rw [hstk])
    grind [upd_app, Frame.holds]

theorem mem_of_find {s : St τ φ δ} (h : WF s) {i c : Nat} (hf : s.find i = some c) :
    c < s.nctx ∧ (s.ctxs c).id = i ∧ (s.ctxs c).life = .alive ∧ InReg s c :=
  have hm := find_some hf
  have := h.mem i c hm
  ⟨this.1, this.2.1, this.2.2, i, hm⟩

/-- A thread that holds a reference to a context keeps it alive. -/
theorem WF.held {s : St τ φ δ} (h : WF s) {t c : Nat} {f : Frame τ φ} (hf : f ∈ s.stk t)
    (hh : f.holds c = true) : c < s.nctx ∧ (s.ctxs c).life = .alive := by
  have h1 := h.hol c t
  have h2 : 0 < (s.stk t).countP (Frame.holds c) := List.countP_pos_iff.2 ⟨f, hf, hh⟩
  have h3 : (s.ctxs c).holders ≠ [] := by intro h0; rw [h0] at h1; simp at h1; omega
  constructor
  · by_contra hlt
    exact h3 (by rw [h.dfl c (by omega)])
  · by_contra hne
    exact h3 (h.ded c hne).1

theorem WF.dl' {C : Client τ φ δ χ} {s s' : St τ φ δ} (h : WF s) {t : Nat} (he : Eff C s t s') :
    ∀ u f c, f ∈ s'.stk u → f.dl c = true → c < s'.nctx ∧ (s'.ctxs c).life ≠ .alive := by
  intro u f c hf hd
  have h0 := h.dl u f c
  have h1 := h.dl t
  cases he
  case relLast =>
    have h2 := h.held (t := t) (c := c_1) (f := .core (.release c_1 f_1 v)) (by simp [hold]) (by simp [Frame.holds])
    rw [hstk] at hf
    rw [hreg.nctx, hctx]
    grind [upd_app, Frame.dl]
  case start =>
    obtain ⟨-, -, -, -, -, -, -, -, h2⟩ := pop_some hpop
    rw [hstk] at hf
    rw [hreg.nctx, hctx]
    grind [upd_app, Frame.dl]
  case spawn =>
    have h2 : s.stk n = [] := (h.free n (by simp [hfree])).1
    rw [hstk] at hf
    rw [hreg.nctx, hctx]
    grind [upd_app, Frame.dl]
  all_goals
    (try rw [hstk] at hf); (try rw [hctx]); (first | rw [hreg.nctx] | rw [hn])
    grind [upd_app, Frame.dl]

theorem WF.tail' {C : Client τ φ δ χ} {s s' : St τ φ δ} (h : WF s) {t : Nat} (he : Eff C s t s') :
    ∀ u f, f ∈ (s'.stk u).tail → f.leaf = false := by
  intro u f hf
  have h0 := h.tail u f
  have h1 := h.tail t
  have hp := @plain_leaf τ φ
  cases he
  case ctl =>
    rw [hstk] at hf
    by_cases hu : u = t
    · subst hu
      rw [hold] at h1
      cases new with
      | nil => simp at hf; exact h1 f (List.mem_of_mem_tail hf)
      | cons g new => grind [upd_app, Frame.leaf]
    · grind [upd_app, Frame.leaf]
  case freed =>
    rw [hstk] at hf
    by_cases hu : u = t
    · subst hu
      rw [hold] at h1
      cases new with
      | nil => simp at hf; exact h1 f (List.mem_of_mem_tail hf)
      | cons g new => grind [upd_app, Frame.leaf]
    · grind [upd_app, Frame.leaf]
  all_goals
    (try rw [hstk] at hf)
    grind [upd_app, Frame.leaf, List.mem_of_mem_tail]

theorem WF.ded' {C : Client τ φ δ χ} {s s' : St τ φ δ} (h : WF s) {t : Nat} (he : Eff C s t s') :
    ∀ c, (s'.ctxs c).life ≠ .alive → (s'.ctxs c).holders = [] ∧ (s'.ctxs c).pend = [] := by
  intro c hc
  have h0 := h.ded c
  cases he
  case relKeep =>
    have h2 := h.held (t := t) (c := c_1) (f := .core (.release c_1 f v)) (by simp [hold]) (by simp [Frame.holds])
    rw [hctx] at hc ⊢
    grind [upd_app, Ctx.pend]
  case destroyed =>
    have h2 := h.dl t _ c_1 (by rw [hold]; exact List.mem_cons_self) (by simp [Frame.dl])
    rw [hctx] at hc ⊢
    grind [upd_app, Ctx.pend]
  case start =>
    obtain ⟨-, -, -, -, -, -, -, -, h2⟩ := pop_some hpop
    rw [hctx] at hc ⊢
    grind [upd_app]
  case regFound =>
    have h2 := mem_of_find h hfind
    rw [hctx] at hc ⊢
    grind [upd_app]
  case unreg =>
    have h2 := mem_of_find h hfind
    rw [hctx] at hc ⊢
    grind [upd_app]
  case hold =>
    have h2 := mem_of_find h hfind
    rw [hctx] at hc ⊢
    grind [upd_app]
  all_goals
    (try rw [hctx] at hc ⊢)
    grind [upd_app, Ctx.pend]

theorem WF.alv' {C : Client τ φ δ χ} {s s' : St τ φ δ} (h : WF s) {t : Nat} (he : Eff C s t s') :
    ∀ c, c < s'.nctx → (s'.ctxs c).life = .alive → InReg s' c ∨ (s'.ctxs c).holders ≠ [] := by
  intro c hlt hc
  have h0 := h.alv c
  cases he
  case regNew =>
    rw [hctx] at hc ⊢
    rw [hn] at hlt
    by_cases hcn : c = s.nctx
    · right; subst hcn; simp
    · rw [upd_ne _ _ hcn] at hc ⊢
      rcases h0 (by omega) hc with ⟨i, hi⟩ | h0
      · left; exact ⟨i, by rw [hcon]; simp [hi]⟩
      · exact .inr h0
  case unreg =>
    have h2 := mem_of_find h hfind
    rw [hctx] at hc ⊢
    rw [hn] at hlt
    by_cases hcn : c = c_1
    · right; subst hcn; simp
    · rw [upd_ne _ _ hcn] at hc ⊢
      rcases h0 (by omega) hc with ⟨i, hi⟩ | h0
      · left
        refine ⟨i, ?_⟩
        rw [hcon]
        simp only [List.mem_filter, hi, true_and, Bool.not_eq_true', beq_eq_false_iff_ne]
        intro hie
        have h3 := h.find_of_mem hi
        simp only [hie] at h3
        rw [hfind] at h3
        exact hcn (Option.some.inj h3).symm
      · exact .inr h0
  case relKeep =>
    rw [inReg_same hreg.contexts]
    rw [hctx] at hc ⊢
    rw [hreg.nctx] at hlt
    by_cases hcn : c = c_1
    · subst hcn
      rw [upd_same]
      rcases hkeep with hk | hk
      · exact .inr hk
      · exact .inl hk
    · grind [upd_app]
  case start =>
    obtain ⟨-, -, -, -, -, -, -, h1, h2⟩ := pop_some hpop
    rw [inReg_same hreg.contexts]
    rw [hctx] at hc ⊢
    rw [hreg.nctx] at hlt
    grind [upd_app]
  all_goals
    rw [inReg_same (by first | exact hreg.contexts | exact hcon)]
    rw [hctx] at hc ⊢
    (first | rw [hreg.nctx] at hlt | rw [hn] at hlt)
    grind [upd_app]

theorem WF.reg' {C : Client τ φ δ χ} {s s' : St τ φ δ} (h : WF s) {t : Nat} (he : Eff C s t s') : RegOK s' := by
  have hr := h.toRegOK
  cases he
  case regNew => exact hr.regNew hfind hgen hidm hcon hn hctx ⟨rfl, rfl, rfl⟩
  case unreg =>
    have h2 := mem_of_find h hfind
    refine hr.unreg hfind hgen hn hidm hcon ?_ ?_ <;> (rw [hctx]; grind [upd_app])
  case regFound =>
    have h2 := mem_of_find h hfind
    have h3 := (hr.find_regId_some hfind).2.2
    refine hr.soft ⟨hgen.trans h3, hidm, hcon, hn⟩ ?_ ?_ ?_ <;> (rw [hctx]; grind [upd_app])
  case hold =>
    have h2 := mem_of_find h hfind
    refine hr.soft hreg ?_ ?_ ?_ <;> (rw [hctx]; grind [upd_app])
  case relLast =>
    have h2 := h.held (t := t) (c := c) (f := .core (.release c f v)) (by simp [hold]) (by simp [Frame.holds])
    refine hr.soft hreg ?_ ?_ ?_ <;> (rw [hctx]; grind [upd_app, InReg])
  case relKeep =>
    have h2 := h.held (t := t) (c := c) (f := .core (.release c f v)) (by simp [hold]) (by simp [Frame.holds])
    refine hr.soft hreg ?_ ?_ ?_ <;> (rw [hctx]; grind [upd_app, InReg])
  case destroyed =>
    have h2 := h.dl t _ c (by rw [hold]; exact List.mem_cons_self) (by simp [Frame.dl])
    refine hr.soft hreg ?_ ?_ ?_ <;> (rw [hctx]; grind [upd_app, InReg])
  case exitSet =>
    have h2 := h.held (t := t) (c := c) (f := .core (.exitSet c)) (by simp [hold]) (by simp [Frame.holds])
    refine hr.soft hreg ?_ ?_ ?_ <;> (rw [hctx]; grind [upd_app, InReg])
  case invPush =>
    have h2 := h.held (t := t) (c := c) (f := .core (.invPush c k)) (by simp [hold]) (by simp [Frame.holds])
    refine hr.soft hreg ?_ ?_ ?_ <;> (rw [hctx]; grind [upd_app, InReg])
  case start =>
    obtain ⟨-, -, h1, h2, -, -, -, -, h3⟩ := pop_some hpop
    have h4 : c < s.nctx := by
      rcases hf with ⟨-, hl, -⟩ | ⟨dl, rfl, -⟩
      · exact (h.loc t c hl).1
      · exact (h.loc t c (h.prk t c dl rest hold)).1
    refine hr.soft hreg ?_ ?_ ?_ <;> (rw [hctx]; grind [upd_app, InReg])
  case park =>
    have h4 := (h.loc t c hlc).1
    refine hr.soft hreg ?_ ?_ ?_ <;> (rw [hctx]; grind [upd_app, InReg])
  case rewait =>
    have h4 := (h.loc t c (h.prk t c dl rest hold)).1
    refine hr.soft hreg ?_ ?_ ?_ <;> (rw [hctx]; grind [upd_app, InReg])
  case parkRet =>
    have h4 := (h.loc t c (h.prk t c dl rest hold)).1
    refine hr.soft hreg ?_ ?_ ?_ <;> (rw [hctx]; grind [upd_app, InReg])
  case freed =>
    have h4 := (h.tsk t _ c (by rw [hold]; exact List.mem_cons_self) (by simp [Frame.task])).1
    refine hr.soft hreg ?_ ?_ ?_ <;> (rw [hctx]; grind [upd_app, InReg])
  all_goals
    refine hr.soft hreg ?_ ?_ ?_ <;> (rw [hctx]; grind [upd_app, InReg])

theorem WF.unreg_loc {s : St τ φ δ} (h : WF s) {t c : Nat} (hf : s.find (s.getId t) = some c) : s.loc t = some c := by
  obtain ⟨h1, h2, h3, h4⟩ := mem_of_find h hf
  have h5 := h.ids c h1
  unfold St.getId at h2
  cases hl : (s.thr t).loc with
  | none => rw [hl] at h2; simp at h2; omega
  | some d =>
    rw [hl] at h2
    have h6 := h.loc t d hl
    have h7 := h.inj c d h1 h6.1 h2
    rw [h7]; exact hl

/-- A context that is no longer alive stays so. -/
theorem life_mono {C : Client τ φ δ χ} {s s' : St τ φ δ} {t : Nat} (he : Eff C s t s') (c : Nat)
    (hc : c < s.nctx) (hl : (s.ctxs c).life ≠ .alive) : (s'.ctxs c).life ≠ .alive := by
  cases he
  case start =>
    obtain ⟨-, -, -, -, -, -, -, -, h2⟩ := pop_some hpop
    rw [hctx]
    grind [upd_app]
  all_goals
    rw [hctx]
    grind [upd_app]

theorem nctx_mono {C : Client τ φ δ χ} {s s' : St τ φ δ} {t : Nat} (he : Eff C s t s') : s.nctx ≤ s'.nctx := by
  cases he <;> (first | rw [hreg.nctx] | rw [hn]) <;> omega

theorem same_id {C : Client τ φ δ χ} {s s' : St τ φ δ} {t : Nat} (he : Eff C s t s') (c : Nat)
    (hc : c < s.nctx) : (s'.ctxs c).native = (s.ctxs c).native ∧ (s'.ctxs c).id = (s.ctxs c).id := by
  cases he
  case start =>
    obtain ⟨-, -, h1, h2, -, -, -, -, -⟩ := pop_some hpop
    rw [hctx]
    grind [upd_app]
  all_goals
    rw [hctx]
    grind [upd_app]

theorem WF.inReg_mono {C : Client τ φ δ χ} {s s' : St τ φ δ} (h : WF s) {t : Nat} (he : Eff C s t s') (c : Nat)
    (hc : InReg s c) : InReg s' c ∨ ((s.ctxs c).native = t ∧ ∃ rest, s.stk t = .core .unreg :: rest ∧
      s.loc t = some c ∧ s'.stk = upd s.stk t (.core (.release c .internal .unit) :: .core .unregClear :: rest) ∧
      s'.log = .unregistered c (s.getId t) (s.ctxs c).native ::
        (if rest.any Frame.inTask then .nestedUnreg t c :: s.log else s.log)) := by
  obtain ⟨i, hi⟩ := hc
  cases he
  case unreg =>
    by_cases hcc : c = c_1
    · subst hcc
      have h1 := h.unreg_loc hfind
      exact .inr ⟨(h.loc t _ h1).2.1, rest, hold, h1, hstk, hlog⟩
    · refine .inl ⟨i, ?_⟩
      rw [hcon]
      simp only [List.mem_filter, hi, true_and, Bool.not_eq_true', beq_eq_false_iff_ne]
      intro hie
      have h3 := h.find_of_mem hi
      simp only [hie] at h3
      rw [hfind] at h3
      exact hcc (Option.some.inj h3).symm
  case regNew => exact .inl ⟨i, by rw [hcon]; simp [hi]⟩
  all_goals
    left
    refine ⟨i, ?_⟩
    (first | rw [hreg.contexts] | rw [hcon])
    exact hi

theorem WF.regd' {C : Client τ φ δ χ} {s s' : St τ φ δ} (h : WF s) {t : Nat} (he : Eff C s t s') :
    ∀ u c rest, s'.stk u = .core (.regDone c true) :: rest → (s'.ctxs c).native = u ∧ InReg s' c := by
  intro u c rest0 hs
  have hold' : (∃ r, s.stk u = .core (.regDone c true) :: r) → u ≠ t → (s'.ctxs c).native = u ∧ InReg s' c := by
    rintro ⟨r, hr⟩ hut
    have h1 := h.regd u c r hr
    obtain ⟨i, hi⟩ := h1.2
    have h2 := (h.mem i c hi).1
    have h3 := same_id he c h2
    refine ⟨h3.1.trans h1.1, ?_⟩
    rcases h.inReg_mono he c h1.2 with h4 | ⟨h4, -⟩
    · exact h4
    · exact absurd (h1.1.symm.trans h4) hut
  have ht := h.tail t
  have hp := @plain_leaf τ φ
  have he' := he
  have hL : (Frame.core (.regDone c true) : Frame τ φ).leaf = true := rfl
  by_cases hut : u = t
  · subst hut
    cases he
    case ctl =>
      exfalso
      rw [hstk, upd_same] at hs
      rw [hold] at ht
      cases new with
      | nil => simp at hs; grind
      | cons g new => grind
    case freed =>
      exfalso
      rw [hstk, upd_same] at hs
      rw [hold] at ht
      cases new with
      | nil => simp at hs; grind
      | cons g new => grind
    case regFound =>
      rw [hstk] at hs
      simp at hs
      obtain ⟨⟨rfl, rfl⟩, rfl⟩ := hs
      have h1 := h.find_regId_some hfind
      rw [hctx]
      simp only [upd_same]
      refine ⟨h1.2.1.trans (hself rfl), (inReg_same hcon _).2 ⟨_, h1.1⟩⟩
    case regNew =>
      rw [hstk] at hs
      simp at hs
      obtain ⟨⟨rfl, rfl⟩, rfl⟩ := hs
      rw [hctx]
      simp only [upd_same]
      exact ⟨hself rfl, ⟨s.regId n, by rw [hcon]; simp⟩⟩
    case halt =>
      have h1 := h.regd u c rest0 (by rw [← hs, hstk])
      rw [hctx]
      exact ⟨h1.1, (inReg_same hreg.contexts _).2 h1.2⟩
    case fin => rw [hstk, hold] at hs; simp at hs
    all_goals
      exfalso
      rw [hstk] at hs
      grind [upd_app]
  · apply hold' _ hut
    cases he
    all_goals
      rw [hstk] at hs
      grind [upd_app]

theorem WF.prk' {C : Client τ φ δ χ} {s s' : St τ φ δ} (h : WF s) {t : Nat} (he : Eff C s t s') :
    ∀ u c dl rest, s'.stk u = .core (.parked c dl) :: rest → s'.loc u = some c := by
  intro u c dl0 rest0 hs
  have hL : (Frame.core (.parked c dl0) : Frame τ φ).leaf = true := rfl
  have ht := h.tail t
  have hp := @plain_leaf τ φ
  have h0 := h.prk u c dl0
  have hfree := h.free
  by_cases hut : u = t
  · subst hut
    cases he
    case ctl =>
      exfalso
      rw [hstk, upd_same] at hs
      rw [hold] at ht
      cases new with
      | nil => simp at hs; grind
      | cons g new => grind
    case freed =>
      exfalso
      rw [hstk, upd_same] at hs
      rw [hold] at ht
      cases new with
      | nil => simp at hs; grind
      | cons g new => grind
    case halt => rw [hstk] at hs; rw [hloc]; exact h0 _ hs
    case fin => rw [hstk, hold] at hs; simp at hs
    all_goals
      (try rw [hstk] at hs); (try rw [hloc])
      grind [upd_app]
  · cases he
    case spawn =>
      rw [hstk] at hs
      rw [hloc]
      rw [upd_ne _ _ hut] at hs
      by_cases hun : u = n
      · subst hun; simp at hs
      · rw [upd_ne _ _ hun] at hs ⊢; exact h0 _ hs
    all_goals
      (try rw [hstk] at hs); rw [hloc]
      grind [upd_app]

theorem mem_unreg_keep {stk : List (Frame τ φ)} {old : Frame τ φ} {rest new : List (Frame τ φ)}
    (hold : stk = old :: rest) (hu : old.isUnreg = false) (hm : Frame.core .unregClear ∈ stk) :
    Frame.core .unregClear ∈ new ++ rest := by
  subst hold
  rcases List.mem_cons.1 hm with h | h
  · rw [← h] at hu; simp [Frame.isUnreg] at hu
  · simp [h]

theorem WF.loc' {C : Client τ φ δ χ} {s s' : St τ φ δ} (h : WF s) {t : Nat} (he : Eff C s t s') :
    ∀ u c, s'.loc u = some c → c < s'.nctx ∧ (s'.ctxs c).native = u ∧ (InReg s' c ∨ Leaving s' u c) := by
  intro u c hl
  have hn := nctx_mono he
  -- the part about contexts that were already someone's
  have base : s.loc u = some c → c < s'.nctx ∧ (s'.ctxs c).native = u := fun h1 => by
    have h2 := h.loc u c h1
    have h3 := same_id he c h2.1
    exact ⟨by omega, h3.1.trans h2.2.1⟩
  have mono := life_mono he c
  by_cases hut : u = t
  · subst hut
    -- thread `u` itself takes the step
    have inr : s.loc u = some c → InReg s c → InReg s' c ∨ Leaving s' u c := fun h1 h2 => by
      rcases h.inReg_mono he c h2 with h3 | ⟨-, rest, -, -, h3, -⟩
      · exact .inl h3
      · exact .inr (.inr (.inr ⟨.internal, .unit, rest, by rw [h3]; simp⟩))
    -- steps of `u` that keep an `unregClear` in its stack keep a dying context leaving
    have keep : s.loc u = some c → Leaving s u c →
        (∀ old rest, s.stk u = old :: rest → old.isUnreg = false ∧ (∀ f v, old ≠ .core (.release c f v)) ∧
          ∃ new, s'.stk u = new ++ rest) → Leaving s' u c := by
      intro h1 h2 h3
      rcases h2 with ⟨h4, h5⟩ | ⟨rest, h4⟩ | ⟨f, v, rest, h4⟩
      · obtain ⟨old, rest, h6⟩ : ∃ old rest, s.stk u = old :: rest := by
          cases hs : s.stk u with
          | nil => rw [hs] at h5; simp at h5
          | cons a b => exact ⟨a, b, rfl⟩
        obtain ⟨h7, -, new, h8⟩ := h3 _ _ h6
        exact .inl ⟨mono (h.loc u c h1).1 h4, by rw [h8]; exact mem_unreg_keep h6 h7 h5⟩
      · have := (h3 _ _ h4).1; simp [Frame.isUnreg] at this
      · exact absurd rfl ((h3 _ _ h4).2.1 f v)
    have fin1 : s.loc u = some c →
        (∀ old rest, s.stk u = old :: rest → old.isUnreg = false ∧ (∀ f v, old ≠ .core (.release c f v)) ∧
          ∃ new, s'.stk u = new ++ rest) → c < s'.nctx ∧ (s'.ctxs c).native = u ∧ (InReg s' c ∨ Leaving s' u c) := by
      intro h1 h2
      refine ⟨(base h1).1, (base h1).2, ?_⟩
      rcases (h.loc u c h1).2.2 with h3 | h3
      · exact inr h1 h3
      · exact .inr (keep h1 h3 h2)
    have hp := @plain_unreg τ φ
    have he' := he
    cases he
    case ctl =>
      rw [hloc] at hl
      apply fin1 hl
      intro o r hs
      rw [hold] at hs
      obtain ⟨rfl, rfl⟩ := List.cons.inj hs
      refine ⟨hp holdp, ?_, new, by rw [hstk]; simp⟩
      rintro f v rfl; simp [Frame.plain] at holdp
    case halt =>
      rw [hloc] at hl
      have h2 := h.loc u c hl
      refine ⟨(base hl).1, (base hl).2, ?_⟩
      rw [inReg_same hreg.contexts]
      simp only [Leaving, hctx, hstk]
      exact h2.2.2
    case fin => rw [hloc] at hl; simp at hl
    case spawn =>
      rw [hloc, upd_ne _ _ hne.symm] at hl
      apply fin1 hl
      intro o r hs
      rw [hold] at hs
      obtain ⟨rfl, rfl⟩ := List.cons.inj hs
      exact ⟨rfl, by simp, [], by rw [hstk]; simp⟩
    case regDone =>
      cases hself : self
      · rw [hself] at hloc
        rw [hloc] at hl
        simp at hl
        apply fin1 hl
        intro o r hs
        rw [hold] at hs
        obtain ⟨rfl, rfl⟩ := List.cons.inj hs
        exact ⟨rfl, by simp, [_], by rw [hstk]; simp; rfl⟩
      · rw [hself] at hloc
        rw [hloc] at hl
        simp at hl
        subst hl
        have h1 := h.regd u _ rest (by rw [hold, hself])
        obtain ⟨i, hi⟩ := h1.2
        refine ⟨by have := (h.mem i _ hi).1; omega, by rw [hctx]; exact h1.1, .inl ((inReg_same hreg.contexts _).2 h1.2)⟩
    case unregNone =>
      rw [hloc] at hl
      refine ⟨(base hl).1, (base hl).2, ?_⟩
      exact .inr (.inr (.inl ⟨rest, by rw [hstk]; simp⟩))
    case unreg =>
      rw [hloc] at hl
      have h1 := h.unreg_loc hfind
      rw [hl] at h1
      obtain rfl := Option.some.inj h1
      refine ⟨(base hl).1, (base hl).2, ?_⟩
      exact .inr (.inr (.inr ⟨.internal, .unit, rest, by rw [hstk, upd_same]⟩))
    case unregClear => rw [hloc] at hl; simp at hl
    case relLast =>
      rw [hloc] at hl
      refine ⟨(base hl).1, (base hl).2, ?_⟩
      rcases (h.loc u c hl).2.2 with h3 | h3
      · exact inr hl h3
      · right
        left
        rcases h3 with ⟨h4, h5⟩ | ⟨rest', h4⟩ | ⟨f', v', rest', h4⟩
        · exact ⟨mono (h.loc u c hl).1 h4, by
            rw [hstk, upd_same]; exact mem_unreg_keep (new := [_]) hold rfl h5⟩
        · rw [hold] at h4; simp at h4
        · rw [hold] at h4
          simp at h4
          obtain ⟨⟨rfl, rfl, rfl⟩, rfl⟩ := h4
          exact ⟨by rw [hctx]; simp, by rw [hstk]; simp⟩
    case relKeep =>
      rw [hloc] at hl
      refine ⟨(base hl).1, (base hl).2, ?_⟩
      rcases (h.loc u c hl).2.2 with h3 | h3
      · exact inr hl h3
      · right
        rcases h3 with ⟨h4, h5⟩ | ⟨rest', h4⟩ | ⟨f', v', rest', h4⟩
        · exact .inl ⟨mono (h.loc u c hl).1 h4, by
            rw [hstk, upd_same]; exact mem_unreg_keep (new := []) hold rfl h5⟩
        · rw [hold] at h4; simp at h4
        · rw [hold] at h4
          simp at h4
          obtain ⟨⟨rfl, rfl, rfl⟩, rfl⟩ := h4
          exact .inr (.inl ⟨rest', by rw [hstk]; simp⟩)
    case hold =>
      rw [hloc] at hl
      apply fin1 hl
      intro o r hs
      rw [hold] at hs
      obtain ⟨rfl, rfl⟩ := List.cons.inj hs
      refine ⟨hp hf, ?_, [g], by rw [hstk]; simp⟩
      rintro f v rfl; simp [Frame.plain] at hf
    case start =>
      rw [hloc] at hl
      apply fin1 hl
      intro o r hs
      rw [hold] at hs
      obtain ⟨rfl, rfl⟩ := List.cons.inj hs
      refine ⟨?_, ?_, [_, _], by rw [hstk]; simp; exact ⟨rfl, rfl⟩⟩
      · rcases hf with ⟨hf, -⟩ | ⟨dl, rfl, -⟩
        · exact hp hf
        · rfl
      · rintro f v rfl
        rcases hf with ⟨hf, -⟩ | ⟨dl, hf, -⟩
        · simp [Frame.plain] at hf
        · simp at hf
    case rewait =>
      rw [hloc] at hl
      have h2 := h.loc u c hl
      refine ⟨(base hl).1, (base hl).2, ?_⟩
      rw [inReg_same hreg.contexts]
      rcases h2.2.2 with h3 | ⟨h4, h5⟩ | ⟨rest', h4⟩ | ⟨f', v', rest', h4⟩
      · exact .inl h3
      · exact .inr (.inl ⟨mono h2.1 h4, by rw [hstk]; exact h5⟩)
      · rw [hold] at h4; simp at h4
      · rw [hold] at h4; simp at h4
    case freed =>
      rw [hloc] at hl
      apply fin1 hl
      intro o r hs
      rw [hold] at hs
      obtain ⟨rfl, rfl⟩ := List.cons.inj hs
      exact ⟨rfl, by simp, new, by rw [hstk]; simp⟩
    all_goals
      rw [hloc] at hl
      apply fin1 hl
      intro o r hs
      rw [hold] at hs
      obtain ⟨rfl, rfl⟩ := List.cons.inj hs
      refine ⟨rfl, by simp, ?_⟩
      rw [hstk, upd_same]
      first
        | exact ⟨[], rfl⟩
        | exact ⟨[_], rfl⟩
        | exact ⟨[_, _], rfl⟩
  · -- another thread takes the step
    have hsame : s.loc u = some c ∧ s'.stk u = s.stk u := by
      cases he
      case spawn =>
        rw [hloc] at hl
        rw [hstk, upd_ne _ _ hut]
        by_cases hun : u = n
        · subst hun; simp at hl
        · rw [upd_ne _ _ hun] at hl ⊢; exact ⟨hl, rfl⟩
      case regDone =>
        rw [hloc] at hl
        rw [hstk, upd_ne _ _ hut]
        cases self
        · simpa using hl
        · simpa [upd_ne _ _ hut] using hl
      all_goals
        rw [hloc] at hl
        rw [hstk]
        first
          | exact ⟨hl, by rw [upd_ne _ _ hut]⟩
          | (rw [upd_ne _ _ hut] at hl; exact ⟨hl, by rw [upd_ne _ _ hut]⟩)
          | (rw [upd_ne _ _ hut] at hl; exact ⟨hl, rfl⟩)
          | exact ⟨hl, rfl⟩
    have h2 := h.loc u c hsame.1
    refine ⟨(base hsame.1).1, (base hsame.1).2, ?_⟩
    rcases h2.2.2 with h3 | ⟨h4, h5⟩ | h4 | h4
    · rcases h.inReg_mono he c h3 with h4 | ⟨h4, -⟩
      · exact .inl h4
      · exact absurd (h2.2.1.symm.trans h4) hut
    · exact .inr (.inl ⟨mono h2.1 h4, by rw [hsame.2]; exact h5⟩)
    · exact .inr (.inr (.inl (by rw [hsame.2]; exact h4)))
    · exact .inr (.inr (.inr (by rw [hsame.2]; exact h4)))

theorem log_mono {C : Client τ φ δ χ} {s s' : St τ φ δ} {t : Nat} (he : Eff C s t s') (e : Ev τ) (hm : e ∈ s.log) :
    e ∈ s'.log := by
  cases he <;> rw [hlog] <;> first | (simp [hm]; done) | grind

theorem task_inTask {f : Frame τ φ} {c : Nat} (h : f.task c = true) : f.inTask = true := by
  cases f with
  | client f => simp [Frame.task] at h
  | core f => cases f <;> first | rfl | simp [Frame.task] at h

theorem WF.tsk' {C : Client τ φ δ χ} {s s' : St τ φ δ} (h : WF s) {t : Nat} (he : Eff C s t s') :
    ∀ u f c, f ∈ s'.stk u → f.task c = true →
    c < s'.nctx ∧ (s'.ctxs c).native = u ∧ (InReg s' c ∨ Ev.nestedUnreg u c ∈ s'.log) := by
  intro u f c hf hc
  have hn := nctx_mono he
  have old : ∀ g, g ∈ s.stk u → g.task c = true → (u = t → s.stk t ≠ [] → g ∈ (s.stk t).tail ∨ s.stk t ≠ .core .unreg :: (s.stk t).tail) →
      c < s'.nctx ∧ (s'.ctxs c).native = u ∧ (InReg s' c ∨ Ev.nestedUnreg u c ∈ s'.log) := by
    intro g hg hgc hgt
    have h1 := h.tsk u g c hg hgc
    have h2 := same_id he c h1.1
    refine ⟨by omega, h2.1.trans h1.2.1, ?_⟩
    rcases h1.2.2 with h3 | h3
    · rcases h.inReg_mono he c h3 with h4 | ⟨h4, rest, h5, h6, h7, h8⟩
      · exact .inl h4
      · right
        have hut : u = t := h1.2.1.symm.trans h4
        subst hut
        have h9 : g ∈ rest := by
          rcases hgt rfl (by rw [h5]; simp) with h10 | h10
          · rw [h5] at h10; exact h10
          · rw [h5] at h10; simp at h10
        rw [h8, if_pos (List.any_eq_true.2 ⟨g, h9, task_inTask hgc⟩)]
        simp
    · exact .inr (log_mono he _ h3)
  have hp := @plain_task τ φ
  have he' := he
  by_cases hut : u = t
  · subst hut
    cases he
    case start =>
      rw [hstk] at hf
      simp at hf
      rcases hf with rfl | rfl | hf
      · simp [Frame.task] at hc
      · simp [Frame.task] at hc
        subst hc
        have hl : s.loc u = some c_1 := by
          rcases hf_1 with ⟨-, h1, -⟩ | ⟨dl, rfl, -⟩
          · exact h1
          · exact h.prk u _ dl rest hold
        have h1 := h.loc u _ hl
        have h2 := same_id he' _ h1.1
        refine ⟨by omega, h2.1.trans h1.2.1, .inl ((inReg_same hreg.contexts _).2 ?_)⟩
        rcases h1.2.2 with h3 | ⟨h4, -⟩ | ⟨rest', h4⟩ | ⟨f', v', rest', h4⟩
        · exact h3
        · exact absurd halive h4
        · rw [hold] at h4
          obtain ⟨rfl, -⟩ := List.cons.inj h4
          rcases hf_1 with ⟨h5, -⟩ | ⟨dl, h5, -⟩
          · simp [Frame.plain] at h5
          · simp at h5
        · rw [hold] at h4
          obtain ⟨rfl, -⟩ := List.cons.inj h4
          rcases hf_1 with ⟨h5, -⟩ | ⟨dl, h5, -⟩
          · simp [Frame.plain] at h5
          · simp at h5
      · exact old f (by rw [hold]; simp [hf]) hc (fun _ _ => .inl (by rw [hold]; exact hf))
    case ran =>
      rw [hstk] at hf
      simp at hf
      rcases hf with rfl | rfl | hf
      · simp [Frame.task] at hc
      · exact old (.core (.ran c_1 k r)) (by rw [hold]; exact List.mem_cons_self) hc
          (fun _ _ => .inr (by rw [hold]; simp))
      · exact old f (by rw [hold]; simp [hf]) hc (fun _ _ => .inl (by rw [hold]; exact hf))
    case halt =>
      rw [hstk] at hf
      have h1 := h.tsk u f c hf hc
      refine ⟨by omega, by rw [hctx]; exact h1.2.1, ?_⟩
      rw [inReg_same hreg.contexts, hlog]
      exact h1.2.2
    case fin => rw [hstk, hold] at hf; simp at hf
    case rewait =>
      rw [hstk] at hf
      exact old f hf hc (fun _ _ => .inr (by rw [hold]; simp))
    case hold =>
      rw [hstk] at hf
      simp at hf
      rcases hf with rfl | hf
      · rw [hgt] at hc; simp at hc
      · exact old f (by rw [hold]; simp [hf]) hc (fun _ _ => .inl (by rw [hold]; exact hf))
    all_goals
      rw [hstk] at hf
      refine old f ?_ hc (fun _ _ => .inl ?_) <;> (rw [hold]; grind [upd_app, Frame.task])
  · have hsame : s'.stk u = s.stk u ∨ f.task c = false := by
      cases he
      case spawn =>
        rw [hstk, upd_ne _ _ hut] at hf
        rw [hstk, upd_ne _ _ hut]
        by_cases hun : u = n
        · subst hun; simp at hf; subst hf; exact .inr rfl
        · rw [upd_ne _ _ hun]; exact .inl rfl
      all_goals
        left
        rw [hstk]
        try rw [upd_ne _ _ hut]
    rcases hsame with h1 | h1
    · rw [h1] at hf; exact old f hf hc (fun h2 => absurd h2 hut)
    · rw [h1] at hc; simp at hc

theorem WF.step {C : Client τ φ δ χ} {s s' : St τ φ δ} (h : WF s) (l : Lbl χ) (hs : step C s l = some s') : WF s' := by
  have hfree := h.free.step l hs
  cases l with
  | tick n =>
    rw [step_tick C s s' n hs]
    exact { nod := h.nod, mem := h.mem, ids := h.ids, inj := h.inj, idm := h.idm, dfl := h.dfl, free := h.free,
            dl := h.dl, hol := h.hol, alv := h.alv, ded := h.ded, tail := h.tail, regd := h.regd, loc := h.loc,
            tsk := h.tsk, prk := h.prk }
  | th t ch =>
    have he := step_eff C s s' t ch hs
    exact { toRegOK := h.reg' he, free := hfree, dl := h.dl' he, hol := h.hol' he, alv := h.alv' he,
            ded := h.ded' he, tail := h.tail' he, regd := h.regd' he, loc := h.loc' he, tsk := h.tsk' he,
            prk := h.prk' he }

theorem WF.reach {C : Client τ φ δ χ} {d : δ} {f : φ} {s : St τ φ δ} (h : Reach C d f s) : WF s :=
  Reach.induct WF (.init d f) (fun _ l _ _ ho hs => WF.step ho l hs) h

end
end Core
end Itc
