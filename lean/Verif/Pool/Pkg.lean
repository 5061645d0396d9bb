import Verif.Pool.Once
import Verif.Sync.Pk

/-!
# Thread pool: the two packaged tasks of a job (proof infrastructure, no claims)

The task of a job (`c.p`) calls the task of the user (`c.u`): the first is ready only if the second is.
-/
namespace Itc
namespace Pool
open Core Sync
section
variable {α φ δ χ : Type}

def xe (ad : PData α δ) (p : Nat) : PTask α → Prop
  | .inner u b => ∃ i id c, Schd ad i id c ∧ c.p = p ∧ c.u = u ∧ c.a = b
  | .usr b => ∃ i id c, Schd ad i id c ∧ c.u = p ∧ c.a = b
  | .check _ => False

def inOk (ad : PData α δ) (u : Nat) (b : α) : Prop := ∃ i id c, Schd ad i id c ∧ c.u = u ∧ c.a = b

def lx (ad : PData α δ) : PTask α → Prop
  | .inner u b => inOk ad u b
  | _ => True

def fx (ad : PData α δ) : PFrame α φ → Prop
  | .inRun u b => inOk ad u b
  | .inDtor u b => inOk ad u b
  | _ => True

variable {ad ad' : PData α δ}

theorem PLe.inOk (h : PLe ad ad') {u : Nat} {b : α} : inOk ad u b → inOk ad' u b := fun ⟨i, id, c, h1, h2⟩ => ⟨i, id, c, h.schd h1, h2⟩
theorem PLe.xe (h : PLe ad ad') {p : Nat} {a : PTask α} (hx : xe ad p a) : xe ad' p a := by
  cases a with
  | inner u b => obtain ⟨i, id, c, h1, h2⟩ := hx; exact ⟨i, id, c, h.schd h1, h2⟩
  | usr b => obtain ⟨i, id, c, h1, h2⟩ := hx; exact ⟨i, id, c, h.schd h1, h2⟩
  | check x => exact hx
theorem PLe.lx (h : PLe ad ad') {a : PTask α} (hx : lx ad a) : lx ad' a := by cases a <;> first | trivial | exact h.inOk hx
theorem PLe.fx (h : PLe ad ad') {f : PFrame α φ} (hx : fx ad f) : fx ad' f := by cases f <;> first | trivial | exact h.inOk hx

def px (U : PApp α φ δ χ) (u0 : δ) (f0 : φ) : AT (poolApp U) { u := u0 } (.usr f0) where
  W _ ad _ a := lx ad a
  L _ ad a := lx ad a
  F _ ad _ f := fx ad f
  Q _ _ _ := True
  G _ _ _ _ := True
  X d ad p a := p < d.nst ∧ ((d.st p).owner = .ext → xe ad p a)
  I _ _ := True
  mono he := ⟨id, id, id, id, id, fun ⟨h1, h2⟩ => ⟨lt_mono he h1, fun ho => h2 (by rw [← he.owner h1]; exact ho)⟩, id, id⟩
  wl _ h _ := h
  run {d ad a} h t := by cases a <;> first | trivial | exact h
  runR {d ad t p a} h := by cases a <;> first | trivial | exact h
  des {d ad a} h t := by cases a <;> first | trivial | exact h
  gset _ _ _ := trivial
  gdtor _ _ _ := trivial
  gpkg _ _ := trivial
  xpkg h1 h2 := ⟨h1, fun h => by rw [h2] at h; cases h⟩
  sync _ _ _ _ _ := trivial
  throw := by
    intro s t g g' rest e hj hst he hp h
    rcases pool_throw h with ⟨g, g', rfl, rfl⟩ | ⟨i, l, c, K, rfl, rfl⟩ | ⟨i, o, K, rfl, rfl⟩ | ⟨i, o, l, K, rfl, rfl⟩ <;> trivial
  app := by
    intro s t ch g rest ad' sa hr he hst hi hp hs
    have hle := ty_step hr he hst hs
    have hlX : ∀ {p a}, (p < s.data.sd.nst ∧ ((s.data.sd.st p).owner = .ext → xe s.data.ad p a)) →
        p < s.data.sd.nst ∧ ((s.data.sd.st p).owner = .ext → xe ad' p a) := fun h => ⟨h.1, fun ho => hle.xe (h.2 ho)⟩
    refine ⟨trivial, ⟨hle.lx, hle.lx, hle.fx, fun _ => trivial, fun _ => trivial, hlX, hle.lx, hle.lx⟩, ?_⟩
    have tI := tyI hr
    have hist := hist hr
    have hF := tyF hr (t := t) (f := g) (by rw [hst]; simp)
    have lt : ∀ {i id c}, Schd s.data.ad i id c → c.p < s.data.sd.nst ∧ c.u < s.data.sd.nst := by
      rintro i id c ⟨t, g, h⟩
      obtain ⟨l1, l2, h1, ⟨k, h2⟩, ⟨k', h3⟩, -⟩ := hist.mem h
      exact ⟨(tI.pk (k := k') (by rw [h1]; simp [h3])).2.1, (tI.pk (k := k) (by rw [h1]; simp [h2])).2.1⟩
    have one : ∀ {i id c}, Schd s.data.ad i id c → lx ad' (.inner c.u c.a) ∧
        (c.p < s.data.sd.nst ∧ ((s.data.sd.st c.p).owner = .ext → xe ad' c.p (.inner c.u c.a))) := fun {i id c} h =>
      ⟨⟨i, id, c, hle.schd h, rfl, rfl⟩, (lt h).1, fun _ => ⟨i, id, c, hle.schd h, rfl, rfl, rfl⟩⟩
    have two : ∀ {u : Nat} {b : α}, inOk s.data.ad u b → u < s.data.sd.nst ∧ ((s.data.sd.st u).owner = .ext → xe ad' u (.usr b)) := by
      rintro u b ⟨i, id, c, h1, rfl, rfl⟩
      exact ⟨(lt h1).2, fun _ => ⟨i, id, c, hle.schd h1, rfl, rfl⟩⟩
    have dis : ∀ {t i id c}, .discarded t i id c ∈ s.data.ad.plog → Schd s.data.ad i id c := by
      intro t i id c h
      obtain ⟨l1, l2, h1, ⟨t', g, h2⟩, -⟩ := hist.mem h
      exact ⟨t', g, by rw [h1]; simp [h2]⟩
    have tk : ∀ {i id c}, Took s.data.ad i id c → Schd s.data.ad i id c := fun ⟨_, _, _, h⟩ => took_schd hr h
    have jb : ∀ {i id} {j : Job α} {c}, findJob (s.data.ad.imp i).jobs id = some j → j.call = some c → Schd s.data.ad i j.id c := by
      intro i id j c hj hc
      obtain ⟨c', h1, -, -, h2⟩ := tI.jobs (findJob_mem hj).1
      rw [h2 c hc]; exact h1
    clear hist
    cases pool_pc hs with
    | usr g ch u wa hU =>
      refine liftP_ok (fun _ _ => trivial) (fun _ _ => trivial) (fun _ => trivial) ?_ (fun _ => trivial) _ _
      intro t a; cases a <;> trivial
    | ck x d' id c hP => trivial
    | ps f d' a hf hb hP =>
      generalize s.thr t = th at hP
      generalize s.view t = v at hP
      cases hP
      case stop i id j c hj hc => exact ⟨trivial, one (jb hj hc)⟩
      case clDrop i id c j c' hj hc => exact ⟨trivial, one (jb hj hc)⟩
      case clFin c =>
        obtain ⟨i, -, id, h⟩ := hF
        exact ⟨trivial, one (tk h)⟩
      case caLoop i o c l K =>
        obtain ⟨id, h⟩ := hF.2.2 c (by simp)
        exact ⟨trivial, one (dis h)⟩
      case ckGo i id c => exact ⟨trivial, one (tk (hF.2 c rfl))⟩
      case inRun p a => exact ⟨trivial, trivial, two hp⟩
      case inDtor p a => exact ⟨trivial, trivial, two hp⟩
      all_goals first
        | trivial
        | exact ⟨trivial, trivial⟩
        | exact ⟨trivial, fun _ => trivial⟩

def nIn : PTask α → Option Nat
  | .inner u _ => some u
  | _ => none

def mIn : PFrame α φ → Option Nat
  | .inRun u _ => some u
  | .inDtor u _ => some u
  | .rtEnd u _ => some u
  | .dtEnd u _ => some u
  | _ => none

def kIn : PFrame α φ → Option Nat
  | .rtEnd u _ => some u
  | .dtEnd u _ => some u
  | .ckRan _ _ c => some c.p
  | .clUnl _ (some c) _ => some c.p
  | .caLoop _ (some c) _ _ => some c.p
  | _ => none

/-- Continuations of a step: of user code only frames of user code. -/
theorem pool_cont {U : PApp α φ δ χ} {v ad f rv ch ad' sa k} (hs : (poolApp U).step v ad f rv ch = some (ad', sa))
    (hk : (liftAct sa).cont = some (.app k)) : (∃ g, k = .usr g) ∨ (∃ a : PApi α, k = a.entry) ∨ (∃ x id c, f = .ckBody x ∧ sa = .goto k ∧ k = .ckUnl x id c) ∨ PS v ad rv f ad' sa := by
  cases pool_pc hs with
  | usr g ch u wa hU =>
    have hl := liftP_cases wa
    clear hs hU
    generalize liftP wa = y at hl hk
    cases hl <;> simp only [liftAct, Act.cont, Option.some.injEq, reduceCtorEq, SFrame.app.injEq] at hk <;> first
      | exact .inl ⟨_, hk.symm⟩
      | exact .inr (.inl ⟨_, hk.symm⟩)
      | exact hk.elim
  | ck x d' id c hP =>
    simp only [liftAct, Act.cont, Option.some.injEq, SFrame.app.injEq] at hk
    exact .inr (.inr (.inl ⟨x, id, c, rfl, by rw [hk], hk.symm⟩))
  | ps f d' a' hf hb hP => exact .inr (.inr (.inr hP))

def pr (U : PApp α φ δ χ) (u0 : δ) (f0 : φ) : AR (px U u0 f0) where
  N := nIn
  M := mIn
  K := kIn
  run a := by cases a <;> exact ⟨rfl, rfl, rfl, rfl⟩
  start := ⟨rfl, rfl⟩
  code h := by
    have := code_z (F := fun g => mIn g = none ∧ kIn g = none) (fun _ => ⟨rfl, rfl⟩) ⟨rfl, rfl⟩ h
    exact this
  throw h := by
    rcases pool_throw h with ⟨g, g', rfl, rfl⟩ | ⟨i, l, c, K, rfl, rfl⟩ | ⟨i, o, K, rfl, rfl⟩ | ⟨i, o, l, K, rfl, rfl⟩ <;> exact ⟨rfl, rfl⟩
  push {v ad f rv ch ad' g k} hs := by
    generalize hx : (SAct.push g k : SAct (PTask α) (PFrame α φ)) = x at hs
    cases pool_pc hs with
    | usr g ch u wa hU =>
      have hl := liftP_cases wa
      clear hs hU
      rw [← hx] at hl
      generalize hy : (SAct.push _ k : SAct (PTask α) (PFrame α φ)) = y at hl
      cases hl <;> first | (cases hy; done) | skip
      · cases hy; exact ⟨rfl, rfl⟩
      · cases hy; rename_i a _; cases a <;> exact ⟨rfl, rfl⟩
    | ck => cases hx
    | ps f d' a' hf hb hP => cases hP <;> cases hx
  kk {v ad f rv ch ad' sa k p} hs hk hp := by
    rcases pool_cont hs hk with ⟨g, rfl⟩ | ⟨a, rfl⟩ | ⟨x, id, c, -, -, rfl⟩ | hP
    · cases hp
    · cases a <;> cases hp
    · cases hp
    · clear hs
      cases hP <;> simp only [liftAct, Act.cont, Option.some.injEq, reduceCtorEq, SFrame.app.injEq] at hk <;> subst hk <;>
        simp only [kIn, Option.some.injEq, reduceCtorEq] at hp <;> subst hp <;> first
        | exact ⟨_, .inl rfl⟩
        | exact ⟨_, .inr rfl⟩
  mm {v ad f rv ch ad' sa u} hs hu := by
    cases pool_pc hs with
    | usr g ch u wa hU => cases hu
    | ck x d' id c hP => cases hu
    | ps f d' a' hf hb hP =>
      clear hs
      cases hP <;> first | (cases hu; done) | exact .inr (.inr rfl) | skip
      all_goals cases hu
      · exact .inr (.inl ⟨_, _, .inl rfl, rfl, rfl⟩)
      · exact .inr (.inl ⟨_, _, .inr rfl, rfl, rfl⟩)
      · exact .inl ⟨rfl, _, rfl⟩
      · exact .inl ⟨rfl, _, rfl⟩
  mc {v ad f rv ch ad' sa k u} hs hk hu := by
    rcases pool_cont hs hk with ⟨g, rfl⟩ | ⟨a, rfl⟩ | ⟨x, id, c, -, -, rfl⟩ | hP
    · cases hu
    · cases a <;> cases hu
    · cases hu
    · clear hs
      cases hP <;> simp only [liftAct, Act.cont, Option.some.injEq, reduceCtorEq, SFrame.app.injEq] at hk <;> subst hk <;>
        first | (cases hu; done) | (cases hu; rfl)

variable {U : PApp α φ δ χ} {u0 : δ} {f0 : φ} {s : PSt α φ δ}

theorem px_ok (h : PR U u0 f0 s) : (px U u0 f0).ty.Ok s := (px U u0 f0).sound trivial trivial h

theorem pr_ok (h : PR U u0 f0 s) : (pr U u0 f0).Ok s :=
  (pr U u0 f0).ok (fun h hm => (px_ok h).fr _ _ hm) (fun h he hst hs _ _ hx => ⟨hx.1, fun ho => (ty_step h he hst hs).xe (hx.2 ho)⟩) h

/-- Every state is mentioned by one job, in one role. -/
theorem sch_uniq (hr : PR U u0 f0 s) {x : Nat} {t t' i i' id id' : Nat} {c c' : Call α} {g g' : Grp} (h : .sched t i id c g ∈ s.data.ad.plog)
    (h' : .sched t' i' id' c' g' ∈ s.data.ad.plog) (hc : c.u = x ∨ c.p = x) (hc' : c'.u = x ∨ c'.p = x) :
    (t = t' ∧ i = i' ∧ id = id' ∧ c = c' ∧ g = g') ∧ ¬ (c.u = x ∧ c.p = x) := by
  have h1 := sch1 hr x
  have w1 : ∀ {c : Call α}, c.u = x ∨ c.p = x → 1 ≤ cs x c := by intro c h; simp only [cs, b1]; grind
  by_cases he : (PEv.sched t i id c g : PEv α) = .sched t' i' id' c' g'
  · cases he
    refine ⟨⟨rfl, rfl, rfl, rfl, rfl⟩, fun ⟨h2, h3⟩ => ?_⟩
    have := lsum_mem (w := eSch x) h
    have h4 : eSch x (PEv.sched t i id c g : PEv α) = 2 := by simp [eSch, cs, b1, h2, h3]
    omega
  · have h2 := lsum_mem2 (w := eSch x) h h' he
    have h3 := w1 hc
    have h4 := w1 hc'
    have h5 : eSch x (PEv.sched t i id c g : PEv α) = cs x c := rfl
    have h6 : eSch x (PEv.sched t' i' id' c' g' : PEv α) = cs x c' := rfl
    omega

theorem sch_ext (hr : PR U u0 f0 s) {i id : Nat} {c : Call α} (h : Schd s.data.ad i id c) :
    (c.u < s.data.sd.nst ∧ (s.data.sd.st c.u).owner = .ext) ∧ c.p < s.data.sd.nst ∧ (s.data.sd.st c.p).owner = .ext := by
  obtain ⟨t, g, h⟩ := h
  obtain ⟨l1, l2, h1, ⟨k, h2⟩, ⟨k', h3⟩, -⟩ := (hist hr).mem h
  have a := (tyI hr).pk (k := k) (x := c.u) (by rw [h1]; simp [h2])
  have b := (tyI hr).pk (k := k') (x := c.p) (by rw [h1]; simp [h3])
  exact ⟨⟨a.2.1, a.2.2.2⟩, b.2.1, b.2.2.2⟩

/-- The task of the user is ready if the task of the job is. -/
theorem up_ready (hr : PR U u0 f0 s) {i id : Nat} {c : Call α} (h : Schd s.data.ad i id c) (hp : s.data.sd.ready c.p = true) : s.data.sd.ready c.u = true := by
  obtain ⟨t, r, hs⟩ := (ready_sat hr c.p).1 hp
  obtain ⟨h1, h2⟩ := (pr_ok hr).sat t c.p r hs
  obtain ⟨a, h3, h4⟩ := h2 (sch_ext hr h).2.2
  have h3 := h3.2 (sch_ext hr h).2.2
  obtain ⟨t, g, h⟩ := h
  cases a with
  | inner u b =>
    obtain ⟨i', id', c', ⟨t', g', h5⟩, h6, rfl, rfl⟩ := h3
    obtain ⟨⟨-, -, -, rfl, -⟩, -⟩ := sch_uniq hr h h5 (x := c.p) (.inr rfl) (.inr h6)
    exact (h4 c.u rfl).2
  | usr b =>
    obtain ⟨i', id', c', ⟨t', g', h5⟩, h6, rfl⟩ := h3
    obtain ⟨⟨-, -, -, rfl, -⟩, h7⟩ := sch_uniq hr h h5 (x := c.p) (.inr rfl) (.inl h6)
    exact absurd ⟨h6, rfl⟩ h7
  | check x => exact h3.elim

/-- Code of the pool that continues after a task was called or destroyed. -/
theorem k_ready (hr : PR U u0 f0 s) {t : Nat} {k : PFrame α φ} {rest : List (Fr (PTask α) (PFrame α φ))} (hst : s.stk t = .client (.app k) :: rest) {p : Nat}
    (hk : kIn k = some p) : s.data.sd.ready p = true ∧ (s.thr t).exc = none := by
  have := ((pr_ok hr).top t _ _ hst).1 p hk
  exact ⟨this.1.2, this.2⟩

end
end Pool
end Itc
