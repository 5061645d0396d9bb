import Verif.Sync.ARet
import Verif.Sync.ALin

/-!
# References to shared states that calls return (proof infrastructure, no claims)

`AGv`: an application receives references to shared states only as results of `get_future`, `then` and `async`. There is at most one for each state.
-/
namespace Itc
namespace Sync
open Core
section
variable {α φ δ χ : Type}

/-- Calls that return a reference to a state. -/
def SApi.gives : SApi α → Prop
  | .getFuture _ => True
  | .futThen _ _ _ _ _ => True
  | .async _ _ _ _ => True
  | _ => False

/-- Frames of these calls. -/
def gvFam : SFrame α φ → Prop
  | .poFut _ => True
  | .thIn _ _ _ _ _ => True
  | .asIn _ _ _ _ => True
  | .laIn .as _ => True
  | .laRet .as _ => True
  | .laInl .as _ => True
  | .done _ => True
  | _ => False

theorem SApi.gives_fam {a : SApi α} (h : a.gives) : gvFam (a.entry : SFrame α φ) := by
  cases a <;> first | exact h.elim | trivial

theorem gv_step {run destroy : α → φ} {v : View} {d d' : SData α} {rv : Val} {f g : SFrame α φ} {x : Act (STask α) (SFrame α φ)}
    (h : gvFam f) (hs : SS run destroy v d rv f d' x) (hc : x.cont = some g) : gvFam g := by
  cases hs <;> first | exact h.elim | (cases hc; done) | (obtain rfl := Option.some.inj hc; trivial) | skip
  case laQueue K c id hid _ => obtain rfl := Option.some.inj hc; cases K <;> first | exact h.elim | trivial
  case laInl K c id hid _ _ => obtain rfl := Option.some.inj hc; cases K <;> first | exact h.elim | trivial
  case laRet K c => cases K <;> first | exact h.elim | skip
                    rcases laNext_cont hc with ⟨p, dn, l, h1, dn', h2⟩ | ⟨h1, -, h2⟩ | ⟨h1, -, h2⟩ <;> cases h1
                    subst h2; trivial
  case laEnd K c => cases K <;> first | exact h.elim | skip
                    rcases laNext_cont hc with ⟨p, dn, l, h1, dn', h2⟩ | ⟨h1, -, h2⟩ | ⟨h1, -, h2⟩ <;> cases h1
                    subst h2; trivial

theorem gv_throw {onThrow : φ → Exn → Option φ} {f : SFrame α φ} (h : gvFam f) (e : Exn) : sThrow onThrow f e = none := by
  cases f <;> first | exact h.elim | rfl

structure AGv (A : App α φ δ χ) (ad0 : δ) (f0 : φ) where
  /-- Frames that receive a reference. -/
  R : φ → Bool
  /-- References received so far. -/
  cnt : δ → Nat → Nat
  c0 : ∀ p, cnt ad0 p = 0
  r0 : R f0 = false
  run : ∀ a, R (A.run a) = false ∧ R (A.destroy a) = false
  throw : ∀ {f e f'}, A.onThrow f e = some f' → R f' = false
  code : ∀ {v ad f rv ch ad' a k}, A.step v ad f rv ch = some (ad', .core a k) → ApiOK (fun _ g => R g = false) (fun _ => True) a
  goto : ∀ {v ad f rv ch ad' g}, A.step v ad f rv ch = some (ad', .goto g) → R g = false
  push : ∀ {v ad f rv ch ad' g k}, A.step v ad f rv ch = some (ad', .push g k) → R g = false ∧ R k = false
  core : ∀ {v ad f rv ch ad' a k}, A.step v ad f rv ch = some (ad', .core a k) → R k = false
  sync : ∀ {v ad f rv ch ad' a k}, A.step v ad f rv ch = some (ad', .sync a k) → R k = true → a.gives
  app : ∀ {v ad f rv ch ad' sa}, A.step v ad f rv ch = some (ad', sa) → ∀ p, cnt ad' p ≤ cnt ad p + if R f ∧ rv = .nat p then 1 else 0
  halt : ∀ {v ad f rv ch ad'}, A.step v ad f rv ch = some (ad', .terminate) → ∀ p, cnt ad' p ≤ cnt ad p

variable {A : App α φ δ χ} {ad0 : δ} {f0 : φ}

namespace AGv
variable (B : AGv A ad0 f0)

def ef : SFrame α φ → Prop
  | .app g => B.R g = false
  | _ => False

theorem codes {s : SSt α φ δ} (h : SR A ad0 f0 s) : Codes B.ef s := by
  refine Codes.reach ?_ h
  intro v d f rv ch d' a k hs
  have key : ∀ x, (client A).step v d f rv ch = some (d', x) → x = .call a k → ApiOK (fun _ g => B.ef g) (fun _ => True) a := by
    intro x hs hx
    cases client_cs hs with
    | app g ad sa hA =>
      clear hs
      cases sa <;> simp [liftAct] at hx
      obtain ⟨rfl, -⟩ := hx
      rename_i a' k'
      have := B.code hA
      clear hA
      cases a' <;> simp only [mapApi, ApiOK] at this ⊢ <;> first | trivial | exact this | skip
      intro f hf u
      simp only [Option.mem_def, Option.map_eq_some_iff] at hf
      obtain ⟨g, hg, rfl⟩ := hf
      exact this g hg u
    | sync f sd x hS =>
      cases hS
      case laRet K c => exact (laNext_call hx).elim
      case laEnd K c => exact (laNext_call hx).elim
      all_goals first | (cases hx; done) | (cases hx; trivial)
  exact key _ hs rfl

def adj : Fr α φ → Fr α φ → Prop
  | .client (.app k), u => B.R k = true → cOnly gvFam u
  | _, _ => True

theorem closed (l : Fr α φ) : Closed (client A) (SR A ad0 f0) (fun _ => False) (B.adj l) := by
  by_cases hl : ∃ k, l = .client (.app k) ∧ B.R k = true
  · obtain ⟨k, rfl, hk⟩ := hl
    refine ⟨?_, ?_, ?_, ?_⟩
    · intro s t ch f rest d' x g hj he hst hs hc hf hk
      have hf : gvFam f := hf hk
      cases client_cs hs with
      | app g ad sa hA => exact hf.elim
      | sync f sd x hS => exact gv_step hf hS hc
    · intro s t f pre g h hf
      exact (hf hk).elim
    · intro g e g' _ ht hf
      have hf : gvFam g := hf hk
      have ht : sThrow A.onThrow g e = some g' := ht
      rw [gv_throw hf] at ht; cases ht
    · intro f k' e _ _ hf
      exact (hf hk).elim
  · have : ∀ u, B.adj l u := by
      intro u
      unfold adj
      split
      · intro hk; exact absurd ⟨_, rfl, hk⟩ hl
      · trivial
    exact ⟨fun _ _ _ _ _ _ => this _, fun _ _ => this _, fun _ _ _ => this _, fun _ _ _ => this _⟩

def stack : Stacking (client A) (SR A ad0 f0) where
  nt _ := False
  Adj := B.adj
  closed := B.closed
  call := by
    intro s t ch f rest d' a u g _ _ _ hs hu hg
    cases g with
    | app k =>
      intro hk
      cases client_cs hs with
      | app g' ad sa hA =>
        cases sa <;> simp only [liftAct, Act.callee, Act.cont, Option.some.injEq, reduceCtorEq, SFrame.app.injEq] at hu hg
        · subst hg; rw [(B.push hA).2] at hk; cases hk
        · subst hg; rw [B.core hA] at hk; cases hk
        · subst hg; subst hu; exact SApi.gives_fam (B.sync hA hk)
      | sync f sd a hS =>
        exfalso
        cases hS
        case laRet K c => rcases laNext_cont hg with ⟨p, dn, l, h1, dn', h2⟩ | ⟨h1, -, h2⟩ | ⟨h1, -, h2⟩ <;> cases h2
        case laEnd K c => rcases laNext_cont hg with ⟨p, dn, l, h1, dn', h2⟩ | ⟨h1, -, h2⟩ | ⟨h1, -, h2⟩ <;> cases h2
        all_goals first | (cases hg; done) | (cases hu; done)
    | _ => trivial
  core := by
    intro s t f rest u g hj hst h
    cases h <;> trivial
  task := by intros; trivial
  noThrow _ _ _ _ := id
  pop h := h.elim
  unwind h := h.elim
  rethrow _ := id

/-- References to state `p` in the frames of the layer. -/
def hw (p : Nat) : SFrame α φ → Nat
  | .laIn .as c => b1 c.p p
  | .laRet .as c => b1 c.p p
  | .laInl .as c => b1 c.p p
  | .done (.nat q) => b1 q p
  | _ => 0

def hv (p : Nat) : SFrame α φ → Val → Nat
  | .app k, v => if B.R k ∧ v = .nat p then 1 else 0
  | _, _ => 0

def rt (d : SData α) (p : Nat) : Nat := if (d.st p).retrieved then 1 else 0

def wts (p : Nat) : Wts (STask α) (SFrame α φ) (Data α δ) where
  eq := false
  wt _ := 0
  wl _ := 0
  wr _ := 0
  lo f := hw p f
  hi f v := hw p f + B.hv p f v
  hx f := hw p f
  out d := B.cnt d.ad p
  inn d := rt d.sd p

/-- References after an action. -/
def aw (p : Nat) (f : SFrame α φ) : Act (STask α) (SFrame α φ) → Nat
  | .goto g => hw p g
  | .push g k => hw p g + hw p k
  | .call _ k => hw p k
  | .ret v => if v = .nat p then 1 else 0
  | .throw _ => 0
  | .terminate => hw p f

theorem b1_val (q p : Nat) : (if Val.nat q = .nat p then 1 else 0) = b1 q p := by simp [b1]

theorem rt_mk {d : SData α} {t : Nat} {x : FSt α} {p : Nat} (hi : T1I d) (h : x.retrieved = true) : b1 d.nst p + rt d p ≤ rt (d.mkState t x) p := by
  unfold rt b1
  by_cases hp : d.nst = p
  · subst hp
    simp [SData.mkState, hi.fresh d.nst (Nat.le_refl _), h]
  · simp [SData.mkState, set_ne _ _ (Ne.symm hp), hp]

theorem rt_ext {d d' : SData α} (p : Nat) (hi : T1I d) (h : Ext d d') : rt d p ≤ rt d' p := by
  unfold rt
  by_cases hp : p < d.nst
  · split
    · rename_i hr; rw [h.retr hp hr]; simp
    · omega
  · rw [hi.fresh p (by omega)]; simp

theorem la_aw (K : LK α) (c : Kont α) (b : Bool) (p : Nat) (f : SFrame α φ) (hK : K = .as ∨ ∀ q, (laNext K c b : Act (STask α) (SFrame α φ)) ≠ .ret (.nat q)) :
    aw p f (laNext K c b) ≤ match K with | .as => b1 c.p p | _ => 0 := by
  cases K <;> cases b <;> simp [laNext, aw, hw, b1]

/-- Calls without a reference as their result return none. -/
theorem gv_acc {run destroy : α → φ} {v : View} {d d' : SData α} {rv : Val} {f : SFrame α φ} {a : Act (STask α) (SFrame α φ)} (hi : T1I d)
    (h : SS run destroy v d rv f d' a) (p : Nat) (hr : gvFam f ∨ ∀ v, a ≠ .ret v) : aw p f a + rt d p ≤ hw p f + rt d' p := by
  have hext := rt_ext p hi h.ext
  cases h
  case laRet K c => have := la_aw (φ := φ) K c (decide (rv ≠ .bool true)) p (.laRet K c) (by cases K <;> cases decide (rv ≠ .bool true) <;> simp [laNext])
                    cases K <;> simp [hw] at this ⊢ <;> omega
  case laEnd K c => have := la_aw (φ := φ) K c true p (.laInl K c) (by cases K <;> simp [laNext])
                    cases K <;> simp [hw] at this ⊢ <;> omega
  case laQueue K c id hid _ => cases K <;> simp [aw, hw] at hext ⊢ <;> omega
  case laInl K c id hid _ _ => cases K <;> simp [aw, hw] at hext ⊢ <;> omega
  case done r => cases r <;> simp [aw, hw, b1]
  case thS q id as b a hq => exact (by have := rt_mk (p := p) (t := v.tid) (x := { isVoid := b, retrieved := true, owner := .pkg, req := some ⟨id, as, d.nst, a⟩ }) hi rfl; simp [aw, hw] at this ⊢; omega)
  case asIn id as b a => exact (by have := rt_mk (p := p) (t := v.tid) (x := { isVoid := b, retrieved := true, owner := .pkg, req := some ⟨id, as, d.nst, a⟩ }) hi rfl; simp [aw, hw] at this ⊢; omega)
  case poFut q r h1 h2 =>
    have hr' : rt d p + b1 r p ≤ rt ((d.setSt r { d.st r with retrieved := true }).ev (.gotFut v.tid r)) p := by
      unfold rt b1
      by_cases hp : r = p
      · subst hp; simp [SData.setSt, SData.ev, h2]
      · simp [SData.setSt, SData.ev, set_ne _ _ (Ne.symm hp), hp]
    simp [aw, hw, b1] at hr' ⊢; omega
  all_goals first
    | (rcases hr with hr | hr <;> first | exact hr.elim | exact absurd rfl (hr _))
    | (simp [aw, hw] at hext ⊢ <;> omega)
    | skip

theorem lsum0 {β : Type} (l : List β) : lsum (fun _ => 0) l = 0 := by
  induction l with
  | nil => rfl
  | cons a l ih => rw [lsum_cons, ih]

theorem lw0 (p : Nat) (f : CF (STask α) (SFrame α φ)) : f.lw (B.wts p) = 0 ∧ f.tw (B.wts p) = 0 := by
  cases f <;> simp [CF.lw, CF.tw, wts, lsum0]

theorem gv_hi {p : Nat} {v : Val} {l u : Fr α φ} (h : B.adj l u) :
    l.hi (B.wts p) v ≤ l.lo (B.wts p) ∨ (v = .nat p ∧ cOnly gvFam u ∧ l.hi (B.wts p) v ≤ l.lo (B.wts p) + 1) := by
  cases l with
  | core l => exact .inl (by simp [Frame.hi, Frame.lo, lw0])
  | client l =>
    cases l <;> first | exact .inl (Nat.le_refl _) | skip
    rename_i k
    simp only [Frame.hi, Frame.lo, wts, hv]
    split
    · rename_i hk; exact .inr ⟨hk.2, h hk.1, by omega⟩
    · exact .inl (by omega)

theorem gv_hx (p : Nat) (l : Fr α φ) : l.hx (B.wts p) = l.lo (B.wts p) := by
  cases l with
  | core l => simp [Frame.hx, Frame.lo, lw0]
  | client l => rfl

theorem topHx_lo (p : Nat) (rest : List (Fr α φ)) : topHx (B.wts p) rest = losum (B.wts p) rest := by
  cases rest with
  | nil => rfl
  | cons l rest => simp [topHx, gv_hx]

theorem topHi_lo {p : Nat} {v : Val} {f : Fr α φ} {rest : List (Fr α φ)} (h : chain B.adj (f :: rest)) :
    topHi (B.wts p) v rest ≤ losum (B.wts p) rest ∨ (v = .nat p ∧ cOnly gvFam f ∧ topHi (B.wts p) v rest ≤ losum (B.wts p) rest + 1) := by
  cases rest with
  | nil => exact .inl (Nat.le_refl _)
  | cons l rest =>
    simp only [topHi, losum_cons]
    rcases B.gv_hi (p := p) (v := v) h.1 with h | ⟨h1, h2, h3⟩
    · exact .inl (by omega)
    · exact .inr ⟨h1, h2, by omega⟩

theorem lin_step (p : Nat) {s : SSt α φ δ} {t : Nat} {ch : Ch χ} {f : SFrame α φ}
    {rest : List (Fr α φ)} {d' : Data α δ} {a : Act (STask α) (SFrame α φ)} (hj : SR A ad0 f0 s)
    (hst : s.stk t = .client f :: rest) (hs : (client A).step (s.view t) s.data f (s.thr t).rv ch = some (d', a)) :
    newW (B.wts p) f (s.thr t).rv rest a + (B.wts p).out d' + (B.wts p).inn s.data ≤
      (B.wts p).hi f (s.thr t).rv + losum (B.wts p) rest + (B.wts p).out s.data + (B.wts p).inn d' := by
  have hch := (B.stack.sound (fun _ h => h) hj).chain t
  rw [hst] at hch
  cases client_cs hs with
  | app g ad sa hA =>
    have h1 := B.app hA p
    have e1 : (B.wts p).out { s.data with ad := ad } = B.cnt ad p := rfl
    have e2 : (B.wts p).out s.data = B.cnt s.data.ad p := rfl
    have e3 : (B.wts p).inn { s.data with ad := ad } = (B.wts p).inn s.data := rfl
    have e4 : (B.wts p).hi (.app g) (s.thr t).rv = if B.R g ∧ (s.thr t).rv = .nat p then 1 else 0 := by simp [wts, hw, hv]
    rw [e1, e2, e3, e4]
    cases sa <;> simp only [liftAct, newW]
    · have : (B.wts p).hi (.app ‹φ›) (s.thr t).rv = 0 := by simp [wts, hw, hv, B.goto hA]
      omega
    · rename_i g' k'
      have h2 : (B.wts p).hi (.app g') (s.thr t).rv = 0 := by simp [wts, hw, hv, (B.push hA).1]
      have h3 : (B.wts p).lo (.app k') = 0 := rfl
      omega
    · rename_i a k
      have h2 := (B.lw0 p (mapApi a).entry).2
      have h3 : (B.wts p).lo (.app k) = 0 := rfl
      omega
    · rename_i a k
      have h2 : (B.wts p).hi a.entry (s.thr t).rv = 0 := by cases a <;> rfl
      have h3 : (B.wts p).lo (.app k) = 0 := rfl
      omega
    · rename_i v
      rcases B.topHi_lo (p := p) (v := v) hch with h | ⟨-, h, -⟩
      · omega
      · exact h.elim
    · rw [B.topHx_lo]; omega
    · have := B.halt hA p; rw [e4]; omega
  | sync f sd a hS =>
    have e1 : (B.wts p).out { s.data with sd := sd } = (B.wts p).out s.data := rfl
    have e2 : (B.wts p).inn { s.data with sd := sd } = rt sd p := rfl
    have e3 : (B.wts p).inn s.data = rt s.data.sd p := rfl
    have e4 : ∀ g v, (∀ k, g ≠ .app k) → (B.wts p).hi g v = hw p g := by
      intro g v hg
      cases g <;> first | rfl | exact absurd rfl (hg _)
    have hna : ∀ k, f ≠ .app k := by rintro k rfl; exact hS.not_app
    have hto : ∀ g, a = .goto g → (B.wts p).hi g (s.thr t).rv = hw p g := by
      rintro g rfl
      refine e4 _ _ ?_
      rintro k rfl
      rcases SS.to_app hS with h | ⟨b, h⟩ | ⟨b, h⟩ <;> exact absurd rfl (h.1 _)
    have hpu : ∀ g k, a = .push g k → (B.wts p).hi g (s.thr t).rv = hw p g := by
      rintro g k rfl
      by_cases hg : ∃ x, g = .app x
      · obtain ⟨x, rfl⟩ := hg
        rcases SS.to_app hS with h | ⟨b, h⟩ | ⟨b, h⟩
        · exact absurd rfl (h.2 _ _)
        · obtain rfl := h.2 x k rfl; simp [wts, hw, hv, (B.run b).1]
        · obtain rfl := h.2 x k rfl; simp [wts, hw, hv, (B.run b).2]
      · exact e4 _ _ fun k hk => hg ⟨k, hk⟩
    rw [e1, e2, e3, e4 f _ hna]
    have hacc := gv_acc (ty1_I hj) hS p
    cases a with
    | goto g => have := hacc (.inr (by simp)); simp only [aw, newW, hto g rfl] at this ⊢; omega
    | push g k =>
      have := hacc (.inr (by simp))
      have h3 : (B.wts p).lo k = hw p k := rfl
      simp only [aw, newW, hpu g k rfl] at this ⊢; omega
    | call a k =>
      have := hacc (.inr (by simp))
      have h2 := (B.lw0 p a.entry).2
      have h3 : (B.wts p).lo k = hw p k := rfl
      simp only [aw, newW] at this ⊢; omega
    | throw e =>
      have := hacc (.inr (by simp))
      simp only [aw, newW, B.topHx_lo] at this ⊢; omega
    | terminate => have := hacc (.inr (by simp)); simp only [aw, newW, e4 f _ hna] at this ⊢; omega
    | ret v =>
      have hx := rt_ext p (ty1_I hj) hS.ext
      simp only [newW]
      rcases B.topHi_lo (p := p) (v := v) hch with h | ⟨h1, h2, h3⟩
      · omega
      · have := hacc (.inl h2)
        simp only [aw, h1, if_true] at this
        omega

def lin (p : Nat) : Lin (client A) (SR A ad0 f0) B.stack where
  toWts := B.wts p
  code := B.ef
  code_hi {f v} h := by
    cases f <;> first | exact False.elim h | skip
    simp [wts, hw, hv, show B.R _ = false from h]
  code_ok h := B.codes h
  run k v := by
    cases k <;> simp [client, wts, hw, hv, Rel, (B.run _).1]
  destroy k v := by
    cases k <;> simp [client, wts, hw, hv, Rel, (B.run _).2]
  destroyR k v := by
    cases k <;> simp [client, wts, hw, hv, Rel, (B.run _).2]
  bot := by
    intro s t pre f hj hst
    have := bot_reach hj t
    rw [hst] at this
    have := botL_app this
    cases f with
    | client g => cases g <;> first | exact False.elim this | exact ⟨_, rfl, rfl⟩
    | core g => exact False.elim this
  step hj _ hst hs := rel_le.2 (B.lin_step p hj hst hs)
  pop {l f v} h _ := by
    refine rel_le.2 ?_
    rcases B.gv_hi (p := p) (v := v) h with h | ⟨-, h, -⟩
    · omega
    · exact h.elim
  unw {l f} _ _ := rel_le.2 (by rw [B.gv_hx]; omega)
  catch' := by
    intro g e g' hn hg
    have hg : sThrow A.onThrow g e = some g' := hg
    refine rel_le.2 ?_
    cases g <;> first
      | (cases hg; done)
      | (have hg := Option.some.inj hg; subst hg; simp [wts, hw, hv]; done)
      | skip
    simp only [sThrow, Option.map_eq_some_iff] at hg
    obtain ⟨x, hx, rfl⟩ := hg
    simp [wts, hw, hv]
  cpop := by
    intro g e l hn hg h
    exact rel_le.2 (by rw [B.gv_hx]; omega)

/-- There is at most one reference to a state, and only if it was handed out. -/
theorem ok {s : SSt α φ δ} (h : SR A ad0 f0 s) (p : Nat) : B.cnt s.data.ad p ≤ if (s.data.sd.st p).retrieved then 1 else 0 := by
  obtain ⟨N, -, h⟩ := (B.lin p).sound (fun _ h => h) (by simp [lin, wts, hw, hv, B.r0]) (rel_le.2 (by simp [lin, wts, B.c0])) h
  have h := rel_le.1 h
  have e1 : (B.lin p).out s.data = B.cnt s.data.ad p := rfl
  have e2 : (B.lin p).inn s.data = rt s.data.sd p := rfl
  rw [e1, e2] at h
  unfold rt at h
  omega

end AGv
end
end Sync
end Itc
