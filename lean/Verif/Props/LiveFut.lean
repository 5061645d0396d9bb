import Verif.Sync.Live
import Verif.Props.Launch
import Verif.Sync.Demo
import Mathlib.Tactic.IntervalCases

/-!
# C60: the future of a function sent to a thread that executes its loop becomes ready

For an arbitrary application of this layer and infinite execution; vocabulary of `Verif.Props.Live`.
-/
namespace Itc
open Core Sync
section
variable {α φ δ χ : Type} {A : App α φ δ χ} {ad : δ} {i0 : φ} {r : Run (client A)} {t c i j p : Nat} {g : φ} {rest : List (Fr α φ)} {a : α}

/-- Thread `t` executes the loop `f` above `rest` from the time `i` on, with local context `c`: it is at the head of its loop at the time `i`, the
    scheduler is fair to it, and the tasks that the loop executes return, as do their destructors. -/
structure Serves {τ φ δ χ : Type} {C : Client τ φ δ χ} (r : Run C) (t c : Nat) (f : φ) (rest : List (Frame τ φ)) (i : Nat) : Prop where
  at_ : AtLoop t c f rest (r.st i)
  just : r.Just t
  loop : IsLoop C f
  run : ∀ k b, r.Returns t (C.run k) (.core (.ran c k (.toWait b)) :: .client f :: rest)
  drop : ∀ k b, r.Returns t (C.destroy k) (.core (.freed c k (.toWait b)) :: .client f :: rest)

/-- The thread registered as `c` is told to exit, or is unregistered. -/
def Ends {τ φ δ χ : Type} {C : Client τ φ δ χ} (r : Run C) (c : Nat) : Prop :=
  (∃ m, .exitSet c ∈ (r.st m).log) ∨ ∃ m id n, .unregistered c id n ∈ (r.st m).log

theorem Serves.loops {τ φ δ χ : Type} {C : Client τ φ δ χ} {d : δ} {f0 : φ} {r : Run C} {t c i : Nat} {f : φ} {rest : List (Frame τ φ)} (h : Serves r t c f rest i)
    (hr : Reach C d f0 (r.st 0)) : Ends r c ∨ Loops r d f0 t c f rest := by
  by_cases he : Ends r c
  · exact .inl he
  · simp only [Ends, not_or, not_exists] at he
    exact .inr ⟨⟨hr, h.just, .of he.2, h.run, h.drop⟩, h.loop, he.1⟩

/-- **C60.** A packaged task of async / then that waits in the queue of a thread that executes its loop: its future becomes ready. -/
theorem C60_ready (hr : SR A ad i0 (r.st 0)) (h : Serves r t c (.app g) rest i) (hij : i ≤ j) (hk : .fut p a ∈ ((r.st j).ctxs c).pend)
    (ho : p < (r.st j).data.sd.nst ∧ ((r.st j).data.sd.st p).owner = .pkg) : (∃ m, (r.st m).data.sd.ready p = true) ∨ Ends r c := by
  rcases h.loops hr with he | hL
  · exact .inr he
  · obtain ⟨m, v, hv⟩ := fut_done hL h.at_ hij hk ho
    exact .inl ⟨m, (C37_dropped (r.reach hr m) v p hv).2⟩

/-- The activation of thread `u` that is directly above `L` at the time `j` ends at the time `m`. -/
def Run.Ends {τ φ δ χ : Type} {C : Client τ φ δ χ} (r : Run C) (u : Nat) (L : List (Frame τ φ)) (j m : Nat) : Prop :=
  j < m ∧ (r.st m).stk u = L ∧ ∀ m', j ≤ m' → m' < m → ∃ pre x, (r.st m').stk u = pre ++ x :: L

theorem Run.frag {τ φ δ χ : Type} {C : Client τ φ δ χ} (r : Run C) {u j k : Nat} {L : List (Frame τ φ)} {x : Frame τ φ} (h0 : (r.st j).stk u = x :: L)
    (h : ∀ m', j ≤ m' → m' ≤ j + k → ∃ pre x, (r.st m').stk u = pre ++ x :: L) : ∃ n, Frag C u L (r.st j) n (r.st (j + k)) := by
  induction k with
  | zero => exact ⟨0, .here x h0⟩
  | succ k ih =>
    obtain ⟨n, hf⟩ := ih fun m' h1 h2 => h m' h1 (by omega)
    obtain ⟨pre, y, hy⟩ := h (j + (k + 1)) (by omega) (by omega)
    by_cases hc : ((r.st (j + k)).stk u).length = L.length + 1 ∧ ∃ c k', (r.st (j + k + 1)).log = .started u c k' :: (r.st (j + k)).log
    · obtain ⟨h1, c', k', h2⟩ := hc
      exact ⟨n + 1, .start _ pre y hf (r.ok _) hy h1 c' k' h2⟩
    · exact ⟨n, .next _ pre y hf (r.ok _) hy hc⟩

def LaPh (q : Nat) : SFrame α φ → SSt α φ δ → Prop
  | .laIn K c, _ => (K matches .as) ∧ c.p = q
  | .laRet K c, _ => (K matches .as) ∧ c.p = q
  | .laInl K c, _ => (K matches .as) ∧ c.p = q
  | .done v, _ => v = .nat q
  | _, _ => False

theorem laPh (t q : Nat) (rest : List (Fr α φ)) :
    LPh (client A) { ad := ad } (.app i0) t rest (LaPh q) (fun v _ => v = .nat q) where
  mono {s s' f l} hr hs h _ _ _ := by cases f <;> exact h
  thr {s s' f e g ch} hr h hg _ _ := by
    cases f <;> simp only [LaPh] at h <;> first | exact h.elim | (cases hg; done)
  cl {s s' f ch d' x} hr hst hexc h hs hstep hdata := by
    cases client_cs hstep with
    | app g ad sa hA => exact h.elim
    | sync f sd x hS =>
      cases hS <;> simp only [LaPh] at h <;> first | exact h.elim | trivial | exact h | exact fun _ => h | skip
      case laRet K c =>
        obtain ⟨h1, h2⟩ := h
        cases K <;> simp at h1
        clear hstep
        generalize decide ((s.thr t).rv ≠ .bool true) = kept
        cases kept
        · exact congrArg Val.nat h2
        · exact fun _ => congrArg Val.nat h2
      case laEnd K c =>
        obtain ⟨h1, h2⟩ := h
        cases K <;> simp at h1
        exact fun _ => congrArg Val.nat h2

theorem call_exc {s s' : SSt α φ δ} {u : Nat} {ch : Ch χ} {x : SFrame α φ} {L : List (Fr α φ)} (hs : step (client A) s (.th u ch) = some s')
    (hst : s.stk u = .client x :: L) (hexc : (s.thr u).exc = none) (hne : s'.stk u ≠ L) : (s'.thr u).exc = none := by
  cases step_cl hs with
  | cl f r' d' a _ hold hstep hdata hact =>
    rw [hst] at hold; cases hold
    cases a with
    | throw e => exact absurd hact.1 hne
    | terminate => exact hact.2.2
    | _ => exact hact.2.1
  | core f r' _ hold => rw [hst] at hold; cases hold
  | fin he hold => rw [hst] at he; cases he
  | _ => simp_all

/-- **C60.** Thread `u` calls async for a function `a` with the id of a thread that executes its loop, with launch::async or from a thread of another id.
    Then the future that this call returns becomes ready.  `hfree`: no init or shutdown holds the global mutex. -/
theorem C60_async (hr : SR A ad i0 (r.st 0)) (h : Serves r t c (.app g) rest i) (hij : i ≤ j) {u id : Nat} {as b : Bool} {L : List (Fr α φ)}
    (hu : r.Just u) (hfree : ∀ m, j ≤ m → (r.st m).gOwner = none) (hid : .registered c id t ∈ (r.st j).log)
    (has : as = true ∨ ∀ m, j ≤ m → (r.st m).getId u ≠ id)
    (hst : (r.st j).stk u = .client (SApi.async id as b a).entry :: L) (hexc : ((r.st j).thr u).exc = none) :
    (∃ p m, (r.st m).data.sd.ready p = true ∧ ((r.st m).data.sd.st p).req = some ⟨id, as, p, a⟩ ∧
      ∀ m', r.Ends u L j m' → ((r.st m').thr u).exc = none → ((r.st m').thr u).rv = .nat p) ∨ Ends r c := by
  rcases h.loops hr with he | hL
  · exact .inr he
  left
  have nx : ∀ {m : Nat} {x : SFrame α φ} {L : List (Fr α φ)}, (r.st m).stk u = .client x :: L → ((r.st m).thr u).exc = none →
      (∀ m', m ≤ m' → ∃ y, sstep A.run A.destroy ((r.st m').view u) (r.st m').data.sd x ((r.st m').thr u).rv = some y) → (∀ g, x ≠ .app g) →
      ∃ m', m ≤ m' ∧ Same u (r.st m) (r.st m') ∧ (∃ ch, step (client A) (r.st m') (.th u ch) = some (r.st (m' + 1))) ∧
        ∀ q, m ≤ q → q ≤ m' → Same u (r.st m) (r.st q) := by
    intro m x L h1 h2 h3 h4
    obtain ⟨m', h5, h6, ⟨ch, h7⟩, h8⟩ := r.next hr hu (i := m) (by rw [h1]; simp) fun q hq hsame => by
      refine ⟨.go, ?_⟩
      obtain ⟨⟨sd, y⟩, hy⟩ := h3 q hq
      rw [step_th (r.reach hr q) (r.good q).1 (r.good q).2 (hsame.stk.trans h1) (hsame.exc.trans h2)]
      simp only [stepClient]
      have : (client A).step ((r.st q).view u) (r.st q).data x ((r.st q).thr u).rv .go = some ({ (r.st q).data with sd := sd }, y) := by
        cases x <;> first | exact absurd rfl (h4 _) | (simp only [client, hy])
      rw [this]
      cases y <;> rfl
    have hok := r.ok m'
    rw [h7] at hok
    exact ⟨m', h5, h6, ⟨ch, hok⟩, h8⟩
  -- async makes the state
  obtain ⟨m1, l1, e1, ⟨ch1, s1⟩, k1⟩ := nx hst hexc (fun m _ => ⟨_, rfl⟩) (by intro g h; cases h)
  obtain ⟨cc, a1, a2, a3, a4⟩ := C34_async (r.reach hr m1) (e1.stk.trans hst) s1
  have x1 := call_exc s1 (e1.stk.trans hst) (e1.exc.trans hexc) (by rw [a1]; simp)
  -- launch
  obtain ⟨m2, l2, e2, ⟨ch2, s2⟩, k2⟩ := nx a1 x1 (fun m _ => by
    simp only [sstep]
    repeat' split
    all_goals exact ⟨_, rfl⟩) (by intro g h; cases h)
  obtain ⟨id', b1, b2, -, b4⟩ := C34_launch (r.reach hr m2) (e2.stk.trans a1) s2
  have hid0 : id ≠ 0 := by
    obtain ⟨h1, h2, -⟩ := ((LInv.reach (r.reach hr j)).regd c id t).1 hid
    have := (WF.reach (r.reach hr j)).ids c h1
    omega
  have hcid : cc.id = id ∧ cc.async = as ∧ cc.body = a ∧ cc.p = (r.st m1).data.sd.nst := by rw [a2]; exact ⟨rfl, rfl, rfl, rfl⟩
  rw [hcid.1, if_neg hid0] at b2
  subst b2
  have b4 := b4 (by
    rw [hcid.2.1]
    rcases has with rfl | has
    · simp
    · exact fun hc => has m2 (by omega) hc.2)
  have x2 := call_exc s2 (e2.stk.trans a1) (e2.exc.trans x1) (by rw [b4]; intro hc; have := congrArg List.length hc; simp at this; omega)
  -- invoke_packaged_task
  have hfind : ∀ m, j ≤ m → (r.st m).find id' = some c ∧ ((r.st m).ctxs c).life = .alive := by
    intro m hm
    have hreg := r.logm hm hid
    have hw := WF.reach (r.reach hr m)
    obtain ⟨i', hi'⟩ := r.inReg hr hreg (hL.unr h.at_ m)
    obtain ⟨-, h2, h3⟩ := hw.mem i' c hi'
    rw [(((LInv.reach (r.reach hr m)).regd c id' t).1 hreg).2.1] at h2
    exact ⟨hw.toRegOK.find_of_mem (h2 ▸ hi'), h3⟩
  obtain ⟨m3, l3, e3, ⟨ch3, c3⟩, k3⟩ := r.next hr hu (i := m2 + 1) (by rw [b4]; simp) fun q hq hsame => by
    refine ⟨.go, ?_⟩
    rw [step_th (r.reach hr q) (r.good q).1 (r.good q).2 (hsame.stk.trans b4) (hsame.exc.trans x2)]
    simp [stepCore, hid0, hfree q (by omega), (hfind q (by omega)).1]
  have s3 := r.ok m3
  rw [c3, step_th (r.reach hr m3) (r.good m3).1 (r.good m3).2 (e3.stk.trans b4) (e3.exc.trans x2)] at s3
  simp only [stepCore, hid0, hfree m3 (by omega), (hfind m3 (by omega)).1, if_false, Option.isSome_none, Bool.false_eq_true, Option.some.injEq] at s3
  have d1 : (r.st (m3 + 1)).stk u = .core (.invPush c (.fut cc.p cc.body)) :: .client (.laRet .as cc) :: L := by rw [← s3]; simp [St.setStk, St.stk]
  have x3 : ((r.st (m3 + 1)).thr u).exc = none := by
    have := e3.exc.trans x2
    rw [← s3]; simpa [St.setStk, St.hold, St.setCtx] using this
  obtain ⟨m4, l4, e4, ⟨ch4, c4⟩, k4⟩ := r.next hr hu (i := m3 + 1) (by rw [d1]; simp) fun q hq hsame => by
    refine ⟨.go, ?_⟩
    rw [step_th (r.reach hr q) (r.good q).1 (r.good q).2 (hsame.stk.trans d1) (hsame.exc.trans x3)]
    simp [stepCore, (hfind q (by omega)).2]
  have s4 := r.ok m4
  rw [c4, step_th (r.reach hr m4) (r.good m4).1 (r.good m4).2 (e4.stk.trans d1) (e4.exc.trans x3)] at s4
  simp only [stepCore] at s4
  rw [if_neg (by simp [(hfind m4 (by omega)).2])] at s4
  have s4 := Option.some.inj s4
  have hpend : .fut cc.p cc.body ∈ ((r.st (m4 + 1)).ctxs c).pend := by
    rw [← s4]; simp [St.setStk, St.setCtx, St.ev, Ctx.pend]
  have hext : ∀ q k, q < (r.st (m1 + 1)).data.sd.nst → q < (r.st (m1 + 1 + k)).data.sd.nst ∧ ((r.st (m1 + 1 + k)).data.sd.st q).owner = ((r.st (m1 + 1)).data.sd.st q).owner ∧
      ((r.st (m1 + 1 + k)).data.sd.st q).req = ((r.st (m1 + 1)).data.sd.st q).req := by
    intro q k hq
    induction k with
    | zero => exact ⟨hq, rfl, rfl⟩
    | succ k ih =>
      have he := step_ext (r.ok (m1 + 1 + k))
      exact ⟨Nat.lt_of_lt_of_le ih.1 he.nst, (he.owner ih.1).trans ih.2.1, (he.req ih.1).trans ih.2.2⟩
  have hlt : cc.p < (r.st (m1 + 1)).data.sd.nst := (ty4_F (r.reach hr (m1 + 1)) (t := u) (g := .laIn .as cc) (by rw [a1]; simp)).2.1
  obtain ⟨m, v, hv⟩ := fut_done hL h.at_ (show i ≤ m4 + 1 by omega) hpend (by
    obtain ⟨k, hk⟩ := Nat.exists_eq_add_of_le (show m1 + 1 ≤ m4 + 1 by omega)
    rw [hk]
    exact ⟨(hext cc.p k hlt).1, (hext cc.p k hlt).2.1.trans a4⟩)
  have hM : ∀ m', m ≤ m' → .dropped v cc.p ∈ (r.st m').data.sd.slog := by
    intro m' hm'
    obtain ⟨k, rfl⟩ := Nat.exists_eq_add_of_le hm'
    clear hm'
    induction k with
    | zero => exact hv
    | succ k ih => exact (step_ext (r.ok (m + k))).mem ih
  refine ⟨cc.p, max m (m1 + 1), (C37_dropped (r.reach hr _) v cc.p (hM _ (by omega))).2, ?_, ?_⟩
  · obtain ⟨k, hk⟩ := Nat.exists_eq_add_of_le (show m1 + 1 ≤ max m (m1 + 1) by omega)
    rw [hk, (hext cc.p k hlt).2.2, a3, ← hcid.2.1, ← hcid.2.2.1]
    congr 1
    cases cc
    simp_all
  · intro m' ⟨h1, h2, h3⟩ h4
    have hlt' : m1 + 1 < m' := by
      by_contra hc
      by_cases hm : m' ≤ m1
      · have := (k1 m' (by omega) hm).stk
        rw [h2, hst] at this
        exact absurd (congrArg List.length this) (by simp)
      · have : m' = m1 + 1 := by omega
        subst this
        rw [h2] at a1
        exact absurd (congrArg List.length a1) (by simp)
    obtain ⟨k, hk⟩ : ∃ k, m' = m1 + 1 + k + 1 := ⟨m' - (m1 + 2), by omega⟩
    obtain ⟨n, hf⟩ := r.frag (u := u) (j := m1 + 1) (k := k) a1 fun q h5 h6 => h3 q (by omega) (by omega)
    subst hk
    exact (laPh u cc.p L).fin (r.reach hr (m1 + 1)) a1 ⟨rfl, rfl⟩ hf (r.ok _) h2 h4

/-! ## Example: main executes its loop, thread 1 sends it a function with async -/

def futProg : List (SAct Nat Nat) :=
  [.core .registerThis 2, .core (.spawn 1 5) 3, .core .wait 3, .ret (.nat 7), .sync (.async 1 true false 4) 0]

def futLbls : List (Lbl Unit) := Core.go 0 8 ++ Core.go 1 9 ++ Core.go 0 20

/-- The stacks of main. -/
def futTab : List (List (Fr Nat Nat)) :=
  let R : Fr Nat Nat := .core (.ran 0 (.fut 0 4) (.toWait false))
  let F : Fr Nat Nat := .core (.freed 0 (.fut 0 4) (.toWait false))
  let L : Fr Nat Nat := .client (.app 3)
  let D : Fr Nat Nat := .client (.ftDone 0)
  [[.client (.app 1)], [.core (.regLook none), .client (.app 2)], [.core (.regDone 0 true), .client (.app 2)],
   [.core (.release 0 (.register 0) (.nat 1)), .client (.app 2)], [.client (.app 2)], [.core (.spawnIn 1 (.app 5)), L], [L], [.core (.waitIn none), L]] ++
  List.replicate 10 [.core (.parked 0 none), L] ++
  [[.client (.ftRun 0 4), R, L], [.client (.app 4), .client (.ftSet 0), R, L], [.client (.ftSet 0), R, L],
   [.client (.svIn 0 (.val (.nat 7))), D, R, L], [.client (.svChk 0 (.val (.nat 7))), D, R, L], [.client (.srSet 0 (.val (.nat 7))), D, R, L],
   [.client (.naIn (.fut 0 [])), D, R, L], [.client (.nLoop (.fut 0 []) []), D, R, L], [.client (.srUnl 0 []), D, R, L],
   [.client (.srLoop 0 [] []), D, R, L], [.client (.srDtor 0 []), D, R, L], [D, R, L], [R, L],
   [.client (.ftDtor 0 4), F, L], [.client (.app 0), .client (.pdIn 0), F, L], [.client (.pdIn 0), F, L], [F, L],
   [L], [.core (.waitIn none), L], [.core (.parked 0 none), L]]

set_option synthInstance.maxSize 2000 in
theorem fut_tab : (List.range 38).map (fun i => (sexec futProg (futLbls.take i)).map fun s => (s.stk 0, (s.thr 0).exc, s.gOwner)) =
    futTab.map fun x => some (x, none, none) := by decide +kernel

theorem fut_end : (sexec futProg futLbls).map (fun s => (s.ub, s.term, (s.ctxs 0).cv, (s.ctxs 0).wakeup, decide ((s.ctxs 0).life = .alive),
    decide ((s.thr 1).status = .running))) = some (false, false, false, false, true, false) := by decide +kernel

theorem fut_ran {i : Nat} {k : STask Nat} {f : SFrame Nat Nat} {b : Bool} (h : i < 38)
    (hi : futTab.getD i [] = [.client f, .core (.ran 0 k (.toWait b)), .client (.app 3)]) :
    (i = 18 ∨ i = 20 ∨ i = 29) ∧ k = .fut 0 4 ∧ b = false := by
  interval_cases i <;> simp [futTab] at hi
  all_goals simp [hi]

theorem fut_freed {i : Nat} {k : STask Nat} {f : SFrame Nat Nat} {b : Bool} (h : i < 38)
    (hi : futTab.getD i [] = [.client f, .core (.freed 0 k (.toWait b)), .client (.app 3)]) :
    (i = 31 ∨ i = 33) ∧ k = .fut 0 4 ∧ b = false := by
  interval_cases i <;> simp [futTab] at hi
  all_goals simp [hi]

/-- Hypotheses of `C60_async` and `C60_ready`. -/
example : ∃ r : Run (demo futProg), SR (tableApp futProg) () 1 (r.st 0) ∧ Serves r 0 0 (.app 3) [] 6 ∧ r.Just 1 ∧ (∀ m, 9 ≤ m → (r.st m).gOwner = none) ∧
    .registered 0 1 0 ∈ (r.st 9).log ∧ (r.st 9).stk 1 = .client (SApi.async 1 true false 4).entry :: [.client (.app 0)] ∧
    ((r.st 9).thr 1).exc = none ∧ .fut 0 4 ∈ ((r.st 13).ctxs 0).pend ∧ 0 < (r.st 13).data.sd.nst ∧ ((r.st 13).data.sd.st 0).owner = .pkg := by
  obtain ⟨s', hs', ho⟩ := Option.map_eq_some_iff.1 fut_end
  simp only [Prod.mk.injEq] at ho
  obtain ⟨r, h0, hr, hl⟩ := Run.ofList hs' ho.1 ho.2.1
  have htab : ∀ i, i < 38 → ((r.st i).stk 0, ((r.st i).thr 0).exc, (r.st i).gOwner) = (futTab.getD i [], none, none) := by
    intro i hi
    have h1 := congrArg (fun l => l[i]?) fut_tab
    have h2 : i < futTab.length := hi
    simp only [List.getElem?_map, List.getElem?_range hi, Option.map_some, sexec, hr i, List.getElem?_eq_getElem h2] at h1
    rw [List.getD_eq_getElem?_getD, List.getElem?_eq_getElem h2]
    exact Option.some.inj (Option.some.inj h1)
  have hstk : ∀ i, i < 38 → (r.st i).stk 0 = futTab.getD i [] := fun i hi => congrArg Prod.fst (htab i hi)
  have hobs : ∀ {β : Type} (g : DSt → β) (i : Nat) (b : β), (sexec futProg (futLbls.take i)).map g = some b → g (r.st i) = b := by
    intro β g i b h
    simp only [sexec, hr i, Option.map_some] at h
    exact Option.some.inj h
  have hend : s'.stk 0 = [.core (.parked 0 none), .client (.app 3)] := by
    have := hstk 37 (by omega)
    rwa [hl 37 (by exact Nat.le_refl 37)] at this
  have hexc : (s'.thr 0).exc = none := by
    have := congrArg (fun x => x.2.1) (htab 37 (by omega))
    simp only at this
    rwa [hl 37 (by exact Nat.le_refl 37)] at this
  have hg : ∀ m, (r.st m).gOwner = none := by
    intro m
    rcases Nat.lt_or_ge m 38 with h | h
    · exact congrArg (fun x => x.2.2) (htab m h)
    · rw [hl m (by show 37 ≤ m; omega), ← hl 37 (by exact Nat.le_refl 37)]
      exact congrArg (fun x => x.2.2) (htab 37 (by omega))
  have hal : (s'.ctxs 0).life = .alive := of_decide_eq_true ho.2.2.2.2.1
  refine ⟨r, ?_, ⟨⟨?_, ?_, ?_⟩, ?_, ⟨?_, ?_⟩, ?_, ?_⟩, ?_, fun m _ => hg m, ?_, ?_, ?_, ?_, ?_, ?_⟩
  · rw [h0]; exact ⟨[], rfl⟩
  · exact (hstk 6 (by omega)).trans rfl
  · exact congrArg (fun x => x.2.1) (htab 6 (by omega))
  · exact hobs (fun s => s.loc 0) 6 _ (by decide +kernel)
  · intro i hi
    obtain ⟨ch, h1⟩ := hi (max i 37) (by omega)
    rw [hl _ (by exact Nat.le_max_right i 37)] at h1
    exfalso
    have hst : (s'.thr 0).stack = [.core (.parked 0 none), .client (.app 3)] := hend
    by_cases hru : (s'.thr 0).status = .running
    · rw [step, if_neg (by simp [ho.1, ho.2.1])] at h1
      simp only [hru, hexc, hst, ne_eq, not_true, if_false, stepCore] at h1
      rw [if_neg (by simp [hal])] at h1
      cases ch <;> simp [ho.2.2.1, ho.2.2.2.1] at h1
    · simp [step, ho.1, ho.2.1, hru] at h1
  · intro v d rv; exact ⟨.go, rfl⟩
  · intro v d rv ch d' a _ h
    cases ch <;> simp [client, tableApp, sprog, futProg, liftAct] at h
    exact h.2.symm
  · intro k b i hi _
    rcases Nat.lt_or_ge i 38 with h | h
    · rw [hstk i h] at hi
      obtain ⟨h1, rfl, rfl⟩ := fut_ran h hi
      have h16 := htab 30 (by omega)
      refine ⟨30, by omega, congrArg Prod.fst h16, congrArg (fun x => x.2.1) h16, fun m h1 h2 => ?_⟩
      rw [hstk m (by omega)]
      have h3 : 18 ≤ m := by omega
      clear hi h1
      interval_cases m <;> first | exact ⟨[], rfl⟩ | exact ⟨[_], rfl⟩ | exact ⟨[_, _], rfl⟩
    · rw [hl i (by show 37 ≤ i; omega), hend] at hi; simp at hi
  · intro k b i hi _
    rcases Nat.lt_or_ge i 38 with h | h
    · rw [hstk i h] at hi
      obtain ⟨h1, rfl, rfl⟩ := fut_freed h hi
      have h16 := htab 34 (by omega)
      refine ⟨34, by omega, congrArg Prod.fst h16, congrArg (fun x => x.2.1) h16, fun m h1 h2 => ?_⟩
      rw [hstk m (by omega)]
      have h3 : 31 ≤ m := by omega
      clear hi h1
      interval_cases m <;> first | exact ⟨[], rfl⟩ | exact ⟨[_], rfl⟩ | exact ⟨[_, _], rfl⟩
    · rw [hl i (by show 37 ≤ i; omega), hend] at hi; simp at hi
  · intro i hi
    obtain ⟨ch, h1⟩ := hi (max i 37) (by omega)
    rw [hl _ (by exact Nat.le_max_right i 37)] at h1
    have := of_decide_eq_false ho.2.2.2.2.2
    simp [step, ho.1, ho.2.1, this] at h1
  · exact of_decide_eq_true (hobs (fun s => decide (.registered 0 1 0 ∈ s.log)) 9 _ (by decide +kernel))
  · exact hobs (fun s => s.stk 1) 9 _ (by decide +kernel)
  · exact hobs (fun s => (s.thr 1).exc) 9 _ (by decide +kernel)
  · exact of_decide_eq_true (hobs (fun s => decide (.fut 0 4 ∈ (s.ctxs 0).pend)) 13 _ (by decide +kernel))
  · exact of_decide_eq_true (hobs (fun s => decide (0 < s.data.sd.nst)) 13 _ (by decide +kernel))
  · exact hobs (fun s => (s.data.sd.st 0).owner) 13 _ (by decide +kernel)

end
end Itc
