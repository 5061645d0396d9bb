import Verif.Sync.Cont
import Verif.Core.Post

/-!
# What is launched is what was given to then / async, and where it may run (proof infrastructure, no claims)
-/
namespace Itc
namespace Sync
open Core
section
variable {α φ δ χ : Type} {A : App α φ δ χ} {ad : δ} {i0 : φ} {s s' s0 : SSt α φ δ}

/-- The continuation is the one its state was created for. -/
def kq (d : SData α) (c : Kont α) : Prop := c.p < d.nst ∧ (d.st c.p).req = some c

def kqs (d : SData α) (l : List (Kont α)) : Prop := ∀ c ∈ l, kq d c

/-- The functor belongs to the packaged task. -/
def bq (d : SData α) (p : Nat) (a : α) : Prop := p < d.nst ∧ ((d.st p).owner = .pkg → ∃ c, (d.st p).req = some c ∧ c.body = a)

def K4N (d : SData α) : NK α → Prop
  | .fut _ l => kqs d l
  | _ => True

def K4L (d : SData α) : LK α → Prop
  | .sr _ dn l => kqs d dn ∧ kqs d l
  | _ => True

def K4F (d : SData α) (t : Nat) : SFrame α φ → Prop
  | .naIn K => K4N d K
  | .nLoop K _ => K4N d K
  | .nCall K _ _ _ => K4N d K
  | .nAfter K _ _ _ => K4N d K
  | .srUnl _ l => kqs d l
  | .srLoop _ dn l => kqs d dn ∧ kqs d l
  | .srDtor _ dn => kqs d dn
  | .scIn _ c => kq d c
  | .laIn K c => K4L d K ∧ kq d c
  | .laRet K c => K4L d K ∧ kq d c
  | .laInl K c => (K4L d K ∧ kq d c) ∧ ∃ i, .launched t c.p i false i ∈ d.slog
  | .ftRun p a => bq d p a
  | .ftDtor p a => bq d p a
  | _ => True

def K4T (d : SData α) : STask α → Prop
  | .fut p a => bq d p a
  | _ => True

structure K4I (d : SData α) : Prop where
  cbs : ∀ q, kqs d (d.st q).cbs
  lau : ∀ t p i as o, .launched t p i as o ∈ d.slog →
    p < d.nst ∧ ∃ c, (d.st p).req = some c ∧ as = c.async ∧ i = if c.id = 0 then o else c.id

section mono
variable {d d' : SData α} (h : Ext d d')
include h
theorem kq_mono {c : Kont α} (hc : kq d c) : kq d' c := ⟨lt_mono h hc.1, (h.req hc.1).trans hc.2⟩
theorem kqs_mono {l : List (Kont α)} (hc : kqs d l) : kqs d' l := fun c hl => kq_mono h (hc c hl)
theorem bq_mono {p : Nat} {a : α} (hc : bq d p a) : bq d' p a :=
  ⟨lt_mono h hc.1, by rw [h.req hc.1, h.owner hc.1]; exact hc.2⟩
theorem K4N_mono {K : NK α} (hc : K4N d K) : K4N d' K := by
  cases K
  case fut => exact kqs_mono h hc
  all_goals trivial
theorem K4L_mono {K : LK α} (hc : K4L d K) : K4L d' K := by
  cases K
  case sr => exact ⟨kqs_mono h hc.1, kqs_mono h hc.2⟩
  all_goals trivial
theorem K4F_mono {t : Nat} {f : SFrame α φ} (hf : K4F d t f) : K4F d' t f := by
  cases f
  case laInl => exact ⟨⟨K4L_mono h hf.1.1, kq_mono h hf.1.2⟩, hf.2.choose, h.mem hf.2.choose_spec⟩
  all_goals first
    | trivial
    | exact kqs_mono h hf
    | exact kq_mono h hf
    | exact K4N_mono h hf
    | exact bq_mono h hf
    | exact ⟨kqs_mono h hf.1, kqs_mono h hf.2⟩
    | exact ⟨K4L_mono h hf.1, kq_mono h hf.2⟩
theorem K4T_mono {k : STask α} (hf : K4T d k) : K4T d' k := by
  cases k
  case fut => exact bq_mono h hf
  all_goals trivial
end mono

theorem kq.bq {d : SData α} {c : Kont α} (h : kq d c) : bq d c.p c.body := ⟨h.1, fun _ => ⟨c, h.2, rfl⟩⟩

theorem K4_laNext {d : SData α} {K : LK α} {c : Kont α} {b : Bool} {t : Nat} (h : K4L d K ∧ kq d c) :
    ActOK (φ := SFrame α φ) (K4F d) (K4T d) t (laNext K c b) := by
  cases K
  case sr p dn l =>
    refine ⟨?_, h.1.2⟩
    cases b
    · exact h.1.1
    · intro c' hc
      rcases List.mem_append.1 hc with hc | hc
      · exact h.1.1 c' hc
      · simp at hc; subst hc; exact h.2
  case sc => cases b; exacts [trivial, h.2.bq]
  case as => cases b; exacts [trivial, ⟨h.2.bq, trivial⟩]

theorem K4I.same {d d' : SData α} (hx : Ext d d') (hi : K4I d) (h1 : ∀ q, ∀ c ∈ (d'.st q).cbs, c ∈ (d.st q).cbs)
    (h2 : ∀ t p i as o, .launched t p i as o ∈ d'.slog → .launched t p i as o ∈ d.slog) : K4I d' where
  cbs q c hc := kq_mono hx (hi.cbs q c (h1 q c hc))
  lau t p i as o h := by
    obtain ⟨h3, h4⟩ := hi.lau t p i as o (h2 _ _ _ _ _ h)
    exact ⟨lt_mono hx h3, by rw [hx.req h3]; exact h4⟩

theorem K4I.launch {d : SData α} (hi : K4I d) {c : Kont α} (hk : kq d c) {t i o : Nat} (hid : i = if c.id = 0 then o else c.id) :
    K4I (d.ev (.launched t c.p i c.async o)) := by
  refine ⟨hi.cbs, ?_⟩
  intro t' p' i' as' o' h
  simp only [SData.ev, List.mem_cons, SEv.launched.injEq] at h
  rcases h with ⟨rfl, rfl, rfl, rfl, rfl⟩ | h
  · exact ⟨hk.1, c, hk.2, rfl, hid⟩
  · exact hi.lau _ _ _ _ _ h

def ty4 (A : App α φ δ χ) (ad : δ) (i0 : φ) : STy A (SR A ad i0) where
  I := K4I
  PF := K4F
  PT := K4T
  app := trivial
  entry {d t a} := by cases a <;> trivial
  tapp := trivial
  step := by
    intro s t f rest d' a hr he hst hi hf hS
    have hx := hS.ext
    have h1 := ty1_I hr
    have hF := ty1_top hr hst
    refine ⟨?_, fun u g hg => K4F_mono hx hg, fun k hk => K4T_mono hx hk, ?_⟩
    · by_cases hc : cspec f
      · cases hS <;> first | exact hc.elim | skip
        case srVal p w =>
          refine hi.same hx ?_ (by simp [SData.ev, SData.setSt])
          intro q c; simp only [SData.ev, SData.setSt, set]; split <;> simp
        case srExn p w =>
          refine hi.same hx ?_ (by simp [SData.ev, SData.setSt])
          intro q c; simp only [SData.ev, SData.setSt, set]; split <;> simp
        case scNow p c hl h => exact hi.same hx (fun _ _ => id) (by simp [SData.ev])
        case scLater p c hl h =>
          refine ⟨?_, ?_⟩
          · intro q
            refine kqs_mono hx ?_
            by_cases hq : q = p
            · subst hq
              simp only [SData.ev, SData.setSt, set_same]
              intro c' hc'
              rcases List.mem_append.1 hc' with hc' | hc'
              · exact hi.cbs _ _ hc'
              · simp at hc'; subst hc'; exact hf
            · simp only [SData.ev, SData.setSt, set_ne _ _ hq]; exact hi.cbs q
          · intro t p i as o h
            obtain ⟨h3, h4⟩ := hi.lau t p i as o (by simpa [SData.ev, SData.setSt] using h)
            exact ⟨lt_mono hx h3, by rw [hx.req h3]; exact h4⟩
        case laQueue K c id hid h => exact hi.launch hf.2 hid
        case laInl K c id hid h _ => exact hi.launch hf.2 hid
      · obtain ⟨q1, es, q2, q3⟩ := cquiet h1 hS hc
        refine hi.same hx (fun q c hc => by rw [← (q1 q).2]; exact hc) ?_
        intro t p i as o h
        rw [q2] at h
        rcases List.mem_append.1 h with h | h
        · exact (q3 _ h).elim
        · exact h
    · have hf' := K4F_mono hx hf
      cases hS
      case laRet K c => exact K4_laNext hf
      case laEnd K c => exact K4_laNext hf.1
      case srVal p w => exact kqs_mono hx (hi.cbs p)
      case srExn p w => exact kqs_mono hx (hi.cbs p)
      case srNext p dn c l => exact ⟨⟨hf.1, fun c h => hf.2 c (by simp [h])⟩, hf.2 c (by simp)⟩
      case srDnext p c l => exact ⟨(hf c (by simp)).bq, fun c h => hf c (by simp [h])⟩
      case laQueue K c id hid h => exact ⟨hf', hf'.2.bq⟩
      case laInl K c id hid h hi =>
        refine ⟨hf'.2.bq, hf', id, ?_⟩
        simp [SData.ev, ← hi, h, St.view]
      case scNow p c hl h => exact ⟨trivial, hf'⟩
      case rtIn p a h ho => exact ⟨⟨h, fun h' => by simp [SData.ev, ho] at h'⟩, trivial⟩
      case dtIn p a h ho => exact ⟨⟨h, fun h' => by simp [SData.ev, ho] at h'⟩, trivial⟩
      case thS p id as b a hp => exact ⟨⟨Nat.lt_succ_self _, by simp [SData.mkState]⟩, trivial⟩
      case asIn id as b a => exact ⟨trivial, Nat.lt_succ_self _, by simp [SData.mkState]⟩
      all_goals first
        | trivial
        | exact hf'
        | exact hf'.1
        | exact hf'.2
        | exact ⟨trivial, trivial⟩
        | exact ⟨trivial, hf'⟩
        | exact ⟨hf', trivial⟩
        | exact ⟨fun c h => False.elim (by cases h), hf'⟩
  done := trivial
  task h _ := ⟨h, h⟩
  throw := by
    intro s t f rest e f' _ _ _ hf hn ht
    cases f <;> first
      | (cases ht; done)
      | exact absurd trivial hn
      | (have ht := Option.some.inj ht; subst ht; trivial)
      | skip
    simp only [sThrow, Option.map_eq_some_iff] at ht
    obtain ⟨x, -, rfl⟩ := ht
    trivial

theorem ty4_ok (h : SR A ad i0 s) : (ty4 A ad i0).ty.Ok s :=
  (ty4 A ad i0).sound ⟨fun q c hc => by simp at hc, by simp⟩ h

theorem ty4_I (h : SR A ad i0 s) : K4I s.data.sd := (ty4_ok h).data

theorem ty4_F (h : SR A ad i0 s) {t : Nat} {g : SFrame α φ} (hg : .client g ∈ s.stk t) : K4F s.data.sd t g := (ty4_ok h).fr t _ hg

/-- What is directly below the call of a packaged task. -/
theorem below_run (hr : SR A ad i0 s) {t p : Nat} {f : SFrame α φ} {rest : List (Fr α φ)} (hst : s.stk t = .client f :: rest) (hf : runFam p f) :
    (∃ K c r, rest = .client (.laInl K c) :: r ∧ c.p = p) ∨ (∃ c a r r', rest = .core (.ran c (.fut p a) r) :: r') ∨
      ∃ r, rest = .client (.xtRet p) :: r := by
  have hc := (stk_ok hr).chain t
  have hb := bot_reach hr t
  rw [hst] at hc hb
  cases rest with
  | nil =>
    cases f <;> first | exact hf.elim | exact False.elim hb
  | cons l rest =>
    have hadj : Adj l (.client f) := hc.1
    cases l with
    | client l =>
      cases l
      case laInl K c =>
        have : runFam c.p f := hadj
        refine .inl ⟨K, c, rest, rfl, ?_⟩
        cases f <;> first | exact hf.elim | exact this.symm.trans hf
      case xtRet q =>
        have : rdFam q f := hadj
        refine .inr (.inr ⟨rest, ?_⟩)
        rcases this with h | h
        · cases f <;> first | exact hf.elim | (cases h; cases hf; rfl)
        · cases f <;> first | exact hf.elim | exact h.elim
      all_goals exfalso; cases f <;> first
        | exact hf.elim
        | exact False.elim hadj
        | exact hadj.elim fun _ h => h.elim
    | core l =>
      cases l
      case ran c k r =>
        cases k with
        | noop => exfalso; have : f = .done .unit := hadj; subst this; exact hf
        | app a =>
          exfalso
          have : tskC f := hadj
          rcases this with h | rfl | ⟨q, h⟩
          · cases f <;> first | exact hf.elim | exact h.elim
          · exact hf
          · cases f <;> first | exact hf.elim | exact h.elim
        | fut q a =>
          have : runFam q f := hadj
          refine .inr (.inl ⟨c, a, r, rest, ?_⟩)
          cases f <;> first | exact hf.elim | (cases this; cases hf; rfl)
      case dispRan k =>
        exfalso
        cases k with
        | noop => have : f = .done .unit := hadj; subst this; exact hf
        | app a =>
          have : tskC f := hadj
          rcases this with h | rfl | ⟨q, h⟩
          · cases f <;> first | exact hf.elim | exact h.elim
          · exact hf
          · cases f <;> first | exact hf.elim | exact h.elim
        | fut q a =>
          cases rest with
          | nil => exact hb
          | cons l2 rest =>
            have h2 : Adj l2 (.core (.dispRan (.fut q a))) := hc.2.1
            cases l2 with
            | client l2 => cases l2 <;> first | exact False.elim h2 | (cases h2; done) | (exact absurd h2 (by simp [Adj, adjC, kOnly, notFam, blkFam, invFam]))
            | core l2 =>
              cases l2 <;> first | exact False.elim h2 | skip
              all_goals first
                | (rename_i k _; cases k <;> exact False.elim h2)
                | (rename_i k; cases k <;> exact False.elim h2)
      all_goals
        exfalso
        first
        | exact False.elim hadj
        | (have : tskC f := hadj
           rcases this with h | rfl | ⟨q, h⟩
           · cases f <;> first | exact hf.elim | exact h.elim
           · exact hf
           · cases f <;> first | exact hf.elim | exact h.elim)

/-- Packaged tasks reach queues only from `launch`. -/
def postL (A : App α φ δ χ) (ad : δ) (i0 : φ) : Post (client A) (SR A ad i0) where
  P d u i k := ∀ p a, k = .fut p a → ∃ as o, .launched u p i as o ∈ d.sd.slog ∧ (as = true ∨ o ≠ i)
  step := by
    intro s t f rest ch d' a hr he hst hs
    cases client_cs hs with
    | app g ad sa hA =>
      refine ⟨fun _ _ _ h => h, ?_⟩
      intro api f' i k ha hp p b hk
      subst hk
      cases sa <;> simp only [liftAct] at ha <;> try (cases ha; done)
      cases ha
      rename_i x _
      cases x <;> simp [mapApi, Api.post] at hp
    | sync f sd a hS =>
      refine ⟨fun u i k h p a hk => ?_, ?_⟩
      · obtain ⟨as, o, h1, h2⟩ := h p a hk
        exact ⟨as, o, hS.ext.mem h1, h2⟩
      · intro api f' i k ha hp p b hk
        subst hk
        generalize s.data.sd = d0 at hS
        cases hS
        case laRet K c => exact (laNext_call ha).elim
        case laEnd K c => exact (laNext_call ha).elim
        case laQueue K c id hid h =>
          cases ha
          cases hp
          exact ⟨c.async, (s.view t).id, by simp [SData.ev, St.view], h⟩
        all_goals first
          | (cases ha; done)
          | (cases ha; cases hp; done)

theorem postL_ok (h : SR A ad i0 s) : (postL A ad i0).Ok s := (postL A ad i0).sound (fun _ h => h) h

end
end Sync
end Itc
