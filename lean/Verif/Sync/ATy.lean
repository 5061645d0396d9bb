import Verif.Sync.Ty

/-!
# Typing of functors, application code and results (proof infrastructure, no claims)

`AT`: facts about every functor that waits for a shared state (`W`), every functor that may be run (`L`), every frame of the
application (`F`), every call on a promise object (`Q`) and every result given to a shared state (`G`). Only the steps of the application
have to be examined.
-/
namespace Itc
namespace Sync
open Core
section
variable {α φ δ χ : Type}

/-- What may become of the promise objects in a step. -/
theorem SS.obj {run destroy : α → φ} {v : View} {d d' : SData α} {rv : Val} {f : SFrame α φ} {a : Act (STask α) (SFrame α φ)}
    (h : SS run destroy v d rv f d' a) (q : Nat) : d'.obj q = d.obj q ∨ d'.obj q = none ∨
      (∃ b, f = .poNew q b ∧ d'.obj q = some d.nst ∧ d'.nst = d.nst + 1 ∧ (d'.st d.nst).home = q ∧ (d'.st d.nst).owner = .usr) ∨
      (∃ q', f = .poMove q q' ∧ d'.obj q = d.obj q') := by
  cases h
  case swIn => unfold SData.addWaiter; split <;> exact .inl rfl
  case wfAdd => unfold SData.addWaiter; split <;> exact .inl rfl
  case swBefore w i k => cases hw : w.lk <;> exact .inl rfl
  case wfBefore w i k _ _ => cases hw : w.lk <;> exact .inl rfl
  case poDok q0 p h hr =>
    by_cases hq : q = q0
    · subst hq; exact .inr (.inl (set_same ..))
    · exact .inl (set_ne _ _ hq)
  case poEnd q0 p =>
    by_cases hq : q = q0
    · subst hq; exact .inr (.inl (set_same ..))
    · exact .inl (set_ne _ _ hq)
  case poMove q1 q2 hne =>
    by_cases hq : q = q2
    · subst hq; exact .inr (.inl (set_same ..))
    · by_cases hq1 : q = q1
      · subst hq1
        exact .inr (.inr (.inr ⟨q2, rfl, (set_ne _ _ hq).trans (set_same ..)⟩))
      · exact .inl ((set_ne _ _ hq).trans (set_ne _ _ hq1))
  case poNew q0 b h0 =>
    by_cases hq : q = q0
    · subst hq
      exact .inr (.inr (.inl ⟨b, rfl, set_same .., rfl, by simp [SData.mkState], by simp [SData.mkState]⟩))
    · exact .inl (set_ne _ _ hq)
  all_goals exact .inl rfl

/-- New `sat` events. -/
theorem SS.sat {run destroy : α → φ} {v : View} {d d' : SData α} {rv : Val} {f : SFrame α φ} {a : Act (STask α) (SFrame α φ)}
    (h : SS run destroy v d rv f d' a) {t p : Nat} {r : Res} (hs : SEv.sat t p r ∈ d'.slog) : SEv.sat t p r ∈ d.slog ∨ f = .srSet p r := by
  cases h
  case swIn => unfold SData.addWaiter at hs; split at hs <;> first | exact .inl hs | (rcases List.mem_cons.1 hs with hs | hs; cases hs; exact .inl hs)
  case wfAdd => unfold SData.addWaiter at hs; split at hs <;> first | exact .inl hs | (rcases List.mem_cons.1 hs with hs | hs; cases hs; exact .inl hs)
  case swBefore w i k => cases hw : w.lk <;> rw [hw] at hs <;> exact .inl hs
  case wfBefore w i k _ _ => cases hw : w.lk <;> rw [hw] at hs <;> exact .inl hs
  case srVal => rcases List.mem_cons.1 hs with hs | hs; cases hs; exact .inr rfl; exact .inl hs
  case srExn => rcases List.mem_cons.1 hs with hs | hs; cases hs; exact .inr rfl; exact .inl hs
  all_goals first
    | exact .inl hs
    | (rcases List.mem_cons.1 hs with hs | hs; cases hs; exact .inl hs)

/-- Callback lists of the states after a step. -/
theorem SS.cbs {run destroy : α → φ} {v : View} {d d' : SData α} {rv : Val} {f : SFrame α φ} {a : Act (STask α) (SFrame α φ)}
    (h : SS run destroy v d rv f d' a) {p : Nat} {c : Kont α} (hc : c ∈ (d'.st p).cbs) : c ∈ (d.st p).cbs ∨ f = .scIn p c := by
  have key : ∀ (q : Nat) (x : FSt α), d'.st = set d.st q x → x.cbs = (d.st q).cbs ∨ x.cbs = [] → c ∈ (d.st p).cbs := by
    intro q x h1 h2
    rw [h1] at hc
    by_cases hp : p = q
    · subst hp
      rw [set_same] at hc
      rcases h2 with h2 | h2 <;> rw [h2] at hc
      · exact hc
      · simp at hc
    · rw [set_ne _ _ hp] at hc; exact hc
  cases h
  case swIn => unfold SData.addWaiter at hc; split at hc <;> exact .inl hc
  case wfAdd => unfold SData.addWaiter at hc; split at hc <;> exact .inl hc
  case swBefore w i k => cases hw : w.lk <;> rw [hw] at hc <;> exact .inl hc
  case wfBefore w i k _ _ => cases hw : w.lk <;> rw [hw] at hc <;> exact .inl hc
  case scLater q c' hl h =>
    have hc : c ∈ (set d.st q { d.st q with cbs := (d.st q).cbs ++ [c'] } p).cbs := hc
    by_cases hp : p = q
    · subst hp
      rw [set_same] at hc
      rcases List.mem_append.1 hc with hc | hc
      · exact .inl hc
      · simp at hc; subst hc; exact .inr rfl
    · rw [set_ne _ _ hp] at hc; exact .inl hc
  all_goals first
    | exact .inl hc
    | exact .inl (key _ _ rfl (.inl rfl))
    | exact .inl (key _ _ rfl (.inr rfl))

/-- Typing of the calls into this layer. -/
def sq (W : Nat → α → Prop) (L : α → Prop) (Q : SApi α → Prop) (X R : Nat → α → Prop) (D : α → Prop) : SApi α → Prop
  | .futThen (some q) _ _ _ a => W q a
  | .futThen none _ _ _ _ => True
  | .async _ _ _ a => L a
  | .runTask p a => R p a ∧ X p a
  | .dropTask p a => D a ∧ X p a
  | a => Q a

def saOk (W : Nat → α → Prop) (L : α → Prop) (F : Nat → φ → Prop) (Q : SApi α → Prop) (X : Nat → α → Prop)
    (R : Nat → Nat → α → Prop) (D : α → Prop) (t : Nat) : SAct α φ → Prop
  | .goto g => F t g
  | .push g k => F t g ∧ F t k
  | .core a k => F t k ∧ ApiOK F L a
  | .sync a k => F t k ∧ sq W L Q X (R t) D a
  | _ => True

structure AP (α φ δ : Type) where
  W : SData α → δ → Nat → α → Prop
  L : SData α → δ → α → Prop
  F : SData α → δ → Nat → φ → Prop
  Q : SData α → δ → SApi α → Prop
  G : SData α → δ → Nat → Res → Prop
  X : SData α → δ → Nat → α → Prop := fun _ _ _ _ => True
  R : SData α → δ → Nat → Nat → α → Prop := fun d ad _ _ a => L d ad a
  D : SData α → δ → α → Prop := L

namespace AP
variable (P : AP α φ δ) (d : SData α) (ad : δ)

def ls (l : List (Kont α)) : Prop := ∀ c ∈ l, P.L d ad c.body

def nk : NK α → Prop
  | .fut _ l => P.ls d ad l
  | _ => True

def lk : LK α → Prop
  | .sr _ dn l => P.ls d ad dn ∧ P.ls d ad l
  | _ => True

def fr (t : Nat) : SFrame α φ → Prop
  | .app g => P.F d ad t g
  | .svIn p r => P.G d ad p r
  | .svChk p r => P.G d ad p r
  | .srSet p r => P.G d ad p r
  | .naIn K => P.nk d ad K
  | .nLoop K _ => P.nk d ad K
  | .nCall K _ _ _ => P.nk d ad K
  | .nAfter K _ _ _ => P.nk d ad K
  | .srUnl _ l => P.ls d ad l
  | .srLoop _ dn l => P.ls d ad dn ∧ P.ls d ad l
  | .srDtor _ dn => P.ls d ad dn
  | .scIn p c => P.W d ad p c.body
  | .laIn K c => P.lk d ad K ∧ P.L d ad c.body
  | .laRet K c => P.lk d ad K ∧ P.L d ad c.body
  | .laInl K c => P.lk d ad K ∧ P.L d ad c.body
  | .rtIn p a => P.R d ad t p a ∧ P.X d ad p a
  | .dtIn p a => P.D d ad a ∧ P.X d ad p a
  | .ftRun p a => P.R d ad t p a ∧ P.X d ad p a
  | .ftDtor p a => P.D d ad a ∧ P.X d ad p a
  | .thIn (some p) _ _ _ a => P.W d ad p a
  | .asIn _ _ _ a => P.L d ad a
  | .poNew q b => P.Q d ad (.promNew q b)
  | .poDtor q => P.Q d ad (.promDtor q)
  | .poMove q q' => P.Q d ad (.promMove q q')
  | .poSet q r => P.Q d ad (.promSet q r)
  | _ => True

def tk : STask α → Prop
  | .noop => True
  | .app a => P.L d ad a
  | .fut p a => (P.D d ad a ∧ ∀ t, P.R d ad t p a) ∧ P.X d ad p a

/-- Every fact that holds keeps holding. -/
structure Le (d : SData α) (ad : δ) (d' : SData α) (ad' : δ) : Prop where
  W : ∀ {q a}, P.W d ad q a → P.W d' ad' q a
  L : ∀ {a}, P.L d ad a → P.L d' ad' a
  F : ∀ {t g}, P.F d ad t g → P.F d' ad' t g
  Q : ∀ {a}, P.Q d ad a → P.Q d' ad' a
  G : ∀ {p r}, P.G d ad p r → P.G d' ad' p r
  X : ∀ {p a}, P.X d ad p a → P.X d' ad' p a
  R : ∀ {t p a}, P.R d ad t p a → P.R d' ad' t p a
  D : ∀ {a}, P.D d ad a → P.D d' ad' a

variable {P d ad} {d' : SData α} {ad' : δ}

theorem Le.ls (h : P.Le d ad d' ad') {l : List (Kont α)} (hl : P.ls d ad l) : P.ls d' ad' l := fun c hc => h.L (hl c hc)

theorem Le.nk (h : P.Le d ad d' ad') {K : NK α} (hk : P.nk d ad K) : P.nk d' ad' K := by
  cases K
  case fut => exact h.ls hk
  all_goals trivial

theorem Le.lk (h : P.Le d ad d' ad') {K : LK α} (hk : P.lk d ad K) : P.lk d' ad' K := by
  cases K
  case sr => exact ⟨h.ls hk.1, h.ls hk.2⟩
  all_goals trivial

theorem Le.fr (h : P.Le d ad d' ad') {t : Nat} {f : SFrame α φ} (hf : P.fr d ad t f) : P.fr d' ad' t f := by
  cases f <;> first
    | trivial
    | exact h.F hf
    | exact h.G hf
    | exact h.L hf
    | exact h.Q hf
    | exact h.W hf
    | exact h.ls hf
    | exact h.nk hf
    | exact ⟨h.ls hf.1, h.ls hf.2⟩
    | exact ⟨h.lk hf.1, h.L hf.2⟩
    | exact ⟨h.R hf.1, h.X hf.2⟩
    | exact ⟨h.D hf.1, h.X hf.2⟩
    | skip
  case thIn p _ _ _ _ =>
    cases p
    · trivial
    · exact h.W hf

theorem Le.tk (h : P.Le d ad d' ad') {k : STask α} (hk : P.tk d ad k) : P.tk d' ad' k := by
  cases k
  · trivial
  · exact h.L hk
  · exact ⟨⟨h.D hk.1.1, fun t => h.R (hk.1.2 t)⟩, h.X hk.2⟩

theorem entry (a : SApi α) (t : Nat) (h : sq (P.W d ad) (P.L d ad) (P.Q d ad) (P.X d ad) (P.R d ad t) (P.D d ad) a) : P.fr d ad t (a.entry : SFrame α φ) := by
  cases a <;> first | trivial | exact h | skip
  case futThen p _ _ _ _ => cases p <;> exact h

end AP

structure AT (A : App α φ δ χ) (ad0 : δ) (f0 : φ) extends AP α φ δ where
  I : SData α → δ → Prop
  mono : ∀ {d d' ad}, Ext d d' → toAP.Le d ad d' ad
  wl : ∀ {d ad q a}, I d ad → W d ad q a → rdy d q → L d ad a
  run : ∀ {d ad a}, L d ad a → ∀ t, F d ad t (A.run a)
  runR : ∀ {d ad t p a}, R d ad t p a → F d ad t (A.run a)
  des : ∀ {d ad a}, D d ad a → ∀ t, F d ad t (A.destroy a)
  rl : ∀ {d ad p a}, p < d.nst → (d.st p).owner = .pkg → L d ad a → ∀ t, R d ad t p a := by exact fun _ _ h _ => h
  dl : ∀ {d ad a}, L d ad a → D d ad a := by exact fun h => h
  gset : ∀ {d ad q r p}, I d ad → Q d ad (.promSet q r) → d.obj q = some p → G d ad p r
  gdtor : ∀ {d ad q p}, I d ad → Q d ad (.promDtor q) → d.obj q = some p → G d ad p (.exn .brokenPromise)
  gpkg : ∀ {d ad p r}, I d ad → tkOk d p → G d ad p r
  app : ∀ {s : SSt α φ δ} {t : Nat} {ch : Ch χ} {g : φ} {rest : List (Fr α φ)} {ad' : δ} {sa : SAct α φ}, SR A ad0 f0 s →
    (s.thr t).exc = none → s.stk t = .client (.app g) :: rest → I s.data.sd s.data.ad → F s.data.sd s.data.ad t g →
    A.step (s.view t) s.data.ad g (s.thr t).rv ch = some (ad', sa) →
    I s.data.sd ad' ∧ toAP.Le s.data.sd s.data.ad s.data.sd ad' ∧
      saOk (W s.data.sd ad') (L s.data.sd ad') (F s.data.sd ad') (Q s.data.sd ad') (X s.data.sd ad') (R s.data.sd ad') (D s.data.sd ad') t sa
  sync : ∀ {s : SSt α φ δ} {t : Nat} {f : SFrame α φ} {rest : List (Fr α φ)} {d' : SData α} {a : Act (STask α) (SFrame α φ)}, SR A ad0 f0 s →
    s.stk t = .client f :: rest → I s.data.sd s.data.ad → toAP.fr s.data.sd s.data.ad t f →
    SS A.run A.destroy (s.view t) s.data.sd (s.thr t).rv f d' a → I d' s.data.ad
  xpkg : ∀ {d ad p a}, p < d.nst → (d.st p).owner = .pkg → X d ad p a := by exact fun _ _ => trivial
  throw : ∀ {s : SSt α φ δ} {t : Nat} {g g' : φ} {rest : List (Fr α φ)} {e : Exn}, SR A ad0 f0 s → s.stk t = .client (.app g) :: rest →
    (s.thr t).exc = some e → F s.data.sd s.data.ad t g → A.onThrow g e = some g' → F s.data.sd s.data.ad t g'

variable {A : App α φ δ χ} {ad0 : δ} {f0 : φ}

structure AT.II (T : AT A ad0 f0) (d : SData α) (ad : δ) : Prop where
  i : T.I d ad
  cbs : ∀ p, ∀ c ∈ (d.st p).cbs, T.W d ad p c.body
  sat : ∀ t p r, SEv.sat t p r ∈ d.slog → T.G d ad p r

theorem mapApi_ok' {P : AP α φ δ} {d : SData α} {ad : δ} {a : Api α φ} (h : ApiOK (P.F d ad) (P.L d ad) a) :
    ApiOK (P.fr d ad) (P.tk d ad) (mapApi a) := by
  cases a <;> simp only [mapApi, ApiOK] at h ⊢ <;> first | trivial | exact h | skip
  intro f hf u
  simp only [Option.mem_def, Option.map_eq_some_iff] at hf
  obtain ⟨g, hg, rfl⟩ := hf
  exact h g hg u

theorem AP.laNext {P : AP α φ δ} {d : SData α} {ad : δ} {K : LK α} {c : Kont α} {b : Bool} {t : Nat} (h : P.lk d ad K ∧ P.L d ad c.body)
    (hd : P.L d ad c.body → P.D d ad c.body) (hx : P.X d ad c.p c.body) :
    ActOK (P.fr d ad) (P.tk d ad) t (laNext K c b : Act (STask α) (SFrame α φ)) := by
  cases K
  case sr p dn l =>
    refine ⟨?_, h.1.2⟩
    cases b
    · exact h.1.1
    · intro c' hc
      rcases List.mem_append.1 hc with hc | hc
      · exact h.1.1 c' hc
      · simp at hc; subst hc; exact h.2
  case sc => cases b <;> first | trivial | exact ⟨hd h.2, hx⟩
  case as => cases b <;> first | trivial | exact ⟨hd h.2, hx⟩ | exact ⟨⟨hd h.2, hx⟩, trivial⟩

theorem AT.act (T : AT A ad0 f0) {v : View} {d d' : SData α} {ad : δ} {rv : Val} {f : SFrame α φ} {a : Act (STask α) (SFrame α φ)} {t : Nat}
    (h1 : T1I d) (h2 : T1F d f) (hi : T.II d ad) (hi' : T.I d' ad) (hf : T.fr d ad t f) (h : SS A.run A.destroy v d rv f d' a) :
    ActOK (T.fr d' ad) (T.tk d' ad) t a := by
  have he := h.ext
  have hle := T.mono (ad := ad) he
  have hf' := hle.fr hf
  have hpk : ∀ {p r}, tkOk d p → T.G d' ad p r := fun hp => T.gpkg hi' (tk_mono he hp)
  have hx : ∀ {c : Kont α}, c.ok d → T.X d' ad c.p c.body := fun hc => T.xpkg (kok_mono he hc).1 (kok_mono he hc).2
  have hr : ∀ {c : Kont α}, c.ok d → T.L d' ad c.body → ∀ t, T.R d' ad t c.p c.body := fun hc h => T.rl (kok_mono he hc).1 (kok_mono he hc).2 h
  cases h
  case laRet K c => exact AP.laNext hf T.dl (hx h2.2)
  case laEnd K c => exact AP.laNext hf T.dl (hx h2.2)
  case srVal p w =>
    intro c hc
    refine T.wl hi' (hle.W (hi.cbs _ c hc)) ⟨lt_mono he h2, ?_⟩
    simp [SData.ready, SData.setSt, SData.ev]
  case srExn p w =>
    intro c hc
    refine T.wl hi' (hle.W (hi.cbs _ c hc)) ⟨lt_mono he h2, ?_⟩
    simp [SData.ready, SData.setSt, SData.ev]
  case srNext p dn c l => exact ⟨⟨hf.1, fun c h => hf.2 c (by simp [h])⟩, hf.2 c (by simp)⟩
  case srDnext p c l => exact ⟨⟨T.dl (hf c (by simp)), hx (h2.2 c (by simp))⟩, fun c h => hf c (by simp [h])⟩
  case srUnl p l => exact ⟨fun c h => (by simp at h), hf'⟩
  case srEnd p dn => exact hf'.1
  case scNow p c hl h => exact ⟨trivial, T.wl hi' (hle.W hf) ⟨h2.1, h⟩⟩
  case laQueue K c id hid h => exact ⟨hf', ⟨T.dl hf'.2, hr h2.2 hf'.2⟩, hx h2.2⟩
  case laInl K c id hid h _ => exact ⟨⟨hr h2.2 hf'.2 _, hx h2.2⟩, hf'⟩
  case rtIn p a h ho => exact ⟨hf', trivial⟩
  case dtIn p a h ho => exact ⟨hf', trivial⟩
  case ftRun p a => exact ⟨T.runR hf.1 |> hle.F, trivial⟩
  case ftDtor p a => exact ⟨T.des hf.1 t |> hle.F, trivial⟩
  case ftSet p => exact ⟨hpk h2, trivial⟩
  case ftExc p e => exact ⟨hpk h2, trivial⟩
  case pdBreak p h => exact ⟨hpk h2, trivial⟩
  case poSet q r p h => exact T.gset hi.i hf h
  case poDbreak q p h hr => exact ⟨T.gdtor hi.i hf h, trivial⟩
  case thS p id as b a hp => exact ⟨hle.W hf, trivial⟩
  case asIn id as b a => exact ⟨trivial, hf'⟩
  all_goals first
    | trivial
    | exact hf'
    | exact ⟨trivial, hf'⟩
    | exact ⟨hf', trivial⟩
    | exact ⟨trivial, trivial⟩

def AT.ty (T : AT A ad0 f0) : Typing (client A) (SR A ad0 f0) where
  I d := T.II d.sd d.ad
  PF d := T.fr d.sd d.ad
  PT d := T.tk d.sd d.ad
  step := by
    intro s t ch f rest d' a hj he hst hi hp hs
    cases client_cs hs with
    | app g ad sa hA =>
      obtain ⟨h1, h2, h3⟩ := T.app hj he hst hi.i hp hA
      refine ⟨⟨h1, fun p c hc => h2.W (hi.cbs p c hc), fun u p r h => h2.G (hi.sat u p r h)⟩, fun _ _ h => h2.fr h, fun _ h => h2.tk h, ?_⟩
      cases sa with
      | goto g => exact h3
      | push g k => exact h3
      | core a k => exact ⟨h3.1, mapApi_ok' h3.2⟩
      | sync a k => exact ⟨AP.entry _ _ h3.2, h3.1⟩
      | ret v => trivial
      | throw e => trivial
      | terminate => trivial
    | sync f sd a hS =>
      have hi' := T.sync hj hst hi.i hp hS
      have hle := T.mono (ad := s.data.ad) hS.ext
      refine ⟨⟨hi', ?_, ?_⟩, fun _ _ h => hle.fr h, fun _ h => hle.tk h, T.act (ty1_I hj) (ty1_top hj hst) hi hi' hp hS⟩
      · intro p c hc
        rcases hS.cbs hc with h | rfl
        · exact hle.W (hi.cbs p c h)
        · exact hle.W hp
      · intro u p r h
        rcases hS.sat h with h | rfl
        · exact hle.G (hi.sat u p r h)
        · exact hle.G hp
  task := by
    intro d k hk t
    cases k with
    | noop => exact ⟨trivial, trivial⟩
    | app a => exact ⟨T.run hk t, T.des (T.dl hk) t⟩
    | fut p a => exact ⟨⟨hk.1.2 t, hk.2⟩, ⟨hk.1.1, hk.2⟩⟩
  throw := by
    intro s t f rest e f' hj hst he hp hf
    have hf : sThrow A.onThrow f e = some f' := hf
    have hn := (stk_ok hj).exc t _ _ (by simp [he]) hst
    cases f <;> first
      | (cases hf; done)
      | exact absurd trivial hn
      | (have hf := Option.some.inj hf; subst hf; first | exact hp | trivial)
      | skip
    simp only [sThrow, Option.map_eq_some_iff] at hf
    obtain ⟨x, hx, rfl⟩ := hf
    exact T.throw hj hst he hp hx

theorem AT.sound (T : AT A ad0 f0) (hI : T.I {} ad0) (hF : T.F {} ad0 0 f0) {s : SSt α φ δ} (h : SR A ad0 f0 s) : T.ty.Ok s :=
  T.ty.sound (fun _ h => h) ⟨hI, fun p c hc => by simp at hc, fun t p r h => by simp at h⟩ hF h

end
end Sync
end Itc
