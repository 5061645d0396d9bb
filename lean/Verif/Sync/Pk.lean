import Verif.Sync.ATy
import Verif.Sync.AppMem
import Verif.Sync.Out

/-!
# Packaged tasks that the application calls (proof infrastructure, no claims)

`AR`: application frames `K` that only continue after the call or destruction of a packaged task, and frames `M` that run on behalf of a
task that wraps another packaged task.
-/
namespace Itc
namespace Sync
open Core
section
variable {α φ δ χ : Type} {A : App α φ δ χ} {ad0 : δ} {f0 : φ}

structure AR (T : AT A ad0 f0) where
  N : α → Option Nat
  M : φ → Option Nat
  K : φ → Option Nat
  run : ∀ a, M (A.run a) = N a ∧ M (A.destroy a) = N a ∧ K (A.run a) = none ∧ K (A.destroy a) = none
  start : M f0 = none ∧ K f0 = none
  code : ∀ {v ad f rv ch ad' a k}, A.step v ad f rv ch = some (ad', .core a k) → ApiOK (fun _ g => M g = none ∧ K g = none) (fun _ => True) a
  throw : ∀ {f e f'}, A.onThrow f e = some f' → M f' = none ∧ K f' = none
  push : ∀ {v ad f rv ch ad' g k}, A.step v ad f rv ch = some (ad', .push g k) → M g = none ∧ K g = none
  kk : ∀ {v ad f rv ch ad' sa k p}, A.step v ad f rv ch = some (ad', sa) → (liftAct sa).cont = some (.app k) → K k = some p →
    ∃ a, sa = .sync (.runTask p a) k ∨ sa = .sync (.dropTask p a) k
  mm : ∀ {v ad f rv ch ad' sa u}, A.step v ad f rv ch = some (ad', sa) → M f = some u →
    (K f = some u ∧ ∃ v, sa = .ret v) ∨ (∃ a k, (sa = .sync (.runTask u a) k ∨ sa = .sync (.dropTask u a) k) ∧ M k = some u ∧ K k = some u) ∨ sa = .terminate
  mc : ∀ {v ad f rv ch ad' sa k u}, A.step v ad f rv ch = some (ad', sa) → (liftAct sa).cont = some (.app k) → M k = some u → M f = some u

/-- Frames with no role. -/
def neu : SFrame α φ → Prop
  | .app _ => False
  | .ftSet _ => False
  | .ftDone _ => False
  | .ftThrew _ _ => False
  | .ftExc _ _ => False
  | .ftEnd _ => False
  | .ftFin _ => False
  | .pdIn _ => False
  | .pdEnd _ => False
  | .xtRet _ => False
  | _ => True

inductive NA (run destroy : α → φ) : SFrame α φ → Act (STask α) (SFrame α φ) → Prop
  | goto {f g} : neu g → NA run destroy f (.goto g)
  | push {f g k} : neu g → neu k → NA run destroy f (.push g k)
  | call {f b k} : neu k → NA run destroy f (.call b k)
  | ret {f v} : NA run destroy f (.ret v)
  | throw {f e} : NA run destroy f (.throw e)
  | term {f} : NA run destroy f .terminate
  | rt {p b} : NA run destroy (.rtIn p b) (.push (.ftRun p b) (.xtRet p))
  | dt {p b} : NA run destroy (.dtIn p b) (.push (.ftDtor p b) (.xtRet p))
  | run {p b} : NA run destroy (.ftRun p b) (.push (.app (run b)) (.ftSet p))
  | dtor {p b} : NA run destroy (.ftDtor p b) (.push (.app (destroy b)) (.pdIn p))
  | fset {p r} : NA run destroy (.ftSet p) (.push (.svIn p r) (.ftDone p))
  | threw {p e} : NA run destroy (.ftThrew p e) (.goto (.ftExc p e))
  | exc {p e} : NA run destroy (.ftExc p e) (.push (.svIn p (.exn e)) (.ftEnd p))
  | pd {p r} : NA run destroy (.pdIn p) (.push (.svIn p r) (.pdEnd p))

theorem ss_na {run destroy : α → φ} {v : View} {d d' : SData α} {rv : Val} {f : SFrame α φ} {a : Act (STask α) (SFrame α φ)}
    (h : SS run destroy v d rv f d' a) : NA run destroy f a := by
  cases h
  case laRet K c => cases K <;> simp only [laNext] <;> (try split) <;> first | exact .goto trivial | exact .push trivial trivial | exact .ret
  case laEnd K c => cases K <;> simp only [laNext] <;> (try split) <;> first | exact .goto trivial | exact .push trivial trivial | exact .ret
  all_goals first
    | exact .rt | exact .dt | exact .run | exact .dtor | exact .fset | exact .threw | exact .exc | exact .pd
    | exact .ret | exact .throw | exact .term | exact .goto trivial | exact .push trivial trivial | exact .call trivial

namespace AR
variable {T : AT A ad0 f0} (B : AR T)

/-- The task inside packaged task `p`, if any, is done. -/
def Q (d : SData α) (ad : δ) (p : Nat) : Prop :=
  p < d.nst ∧ ((d.st p).owner = .ext → ∃ a, T.X d ad p a ∧ ∀ u, B.N a = some u → rdy d u)

def In (d : SData α) (ad : δ) (p : Nat) (x : Fr α φ) : Prop :=
  p < d.nst ∧ ((d.st p).owner = .ext → ∃ a, T.X d ad p a ∧ ∀ u, B.N a = some u → ∃ g, x = .client (.app g) ∧ B.M g = some u)

def Lk (d : SData α) (ad : δ) : Fr α φ → Fr α φ → Prop
  | .client (.ftSet p), x => B.In d ad p x
  | .client (.pdIn p), x => B.In d ad p x
  | .client (.app k), x => (∀ p, B.K k = some p → x = .client (.xtRet p) ∨ ∃ a, x = .client (.rtIn p a) ∨ x = .client (.dtIn p a)) ∧
      (∀ u, B.M k = some u → B.K k = some u)
  | _, _ => True

def Tp (d : SData α) (ad : δ) (exc : Option Exn) : Fr α φ → Prop
  | .client (.ftSet p) => B.Q d ad p
  | .client (.pdIn p) => B.Q d ad p
  | .client (.xtRet p) => rdy d p
  | .client (.app k) => (∀ p, B.K k = some p → rdy d p ∧ exc = none) ∧ (∀ u, B.M k = some u → exc = none)
  | _ => True

def FQ (d : SData α) (ad : δ) : SFrame α φ → Prop
  | .ftThrew p _ => B.Q d ad p
  | .ftExc p _ => B.Q d ad p
  | .ftDone p => B.Q d ad p
  | .ftEnd p => B.Q d ad p
  | .ftFin p => B.Q d ad p
  | .pdEnd p => B.Q d ad p
  | _ => True

structure Ok (s : SSt α φ δ) : Prop where
  chain : ∀ t, chain (B.Lk s.data.sd s.data.ad) (s.stk t)
  top : ∀ t f rest, s.stk t = f :: rest → B.Tp s.data.sd s.data.ad (s.thr t).exc f
  fr : ∀ t f, .client f ∈ s.stk t → B.FQ s.data.sd s.data.ad f
  sat : ∀ t p r, .sat t p r ∈ s.data.sd.slog → B.Q s.data.sd s.data.ad p

section mono
variable {B} {d d' : SData α} {ad ad' : δ} (he : Ext d d') (hx : ∀ {p a}, T.X d ad p a → T.X d' ad' p a)
include he hx

theorem Q_mono {p : Nat} (h : B.Q d ad p) : B.Q d' ad' p := by
  refine ⟨lt_mono he h.1, fun ho => ?_⟩
  obtain ⟨a, h1, h2⟩ := h.2 (by rw [← he.owner h.1]; exact ho)
  exact ⟨a, hx h1, fun u hu => rdy_mono he (h2 u hu)⟩

theorem In_mono {p : Nat} {x : Fr α φ} (h : B.In d ad p x) : B.In d' ad' p x := by
  refine ⟨lt_mono he h.1, fun ho => ?_⟩
  obtain ⟨a, h1, h2⟩ := h.2 (by rw [← he.owner h.1]; exact ho)
  exact ⟨a, hx h1, h2⟩

theorem Lk_mono {l x : Fr α φ} (h : B.Lk d ad l x) : B.Lk d' ad' l x := by
  cases l with
  | core f => trivial
  | client f => cases f <;> first | trivial | exact In_mono he hx h | exact h

theorem Tp_mono {e : Option Exn} {l : Fr α φ} (h : B.Tp d ad e l) : B.Tp d' ad' e l := by
  cases l with
  | core f => trivial
  | client f =>
    cases f <;> first | trivial | exact Q_mono he hx h | exact rdy_mono he h | skip
    exact ⟨fun p hp => ⟨rdy_mono he (h.1 p hp).1, (h.1 p hp).2⟩, h.2⟩

theorem FQ_mono {f : SFrame α φ} (h : B.FQ d ad f) : B.FQ d' ad' f := by
  cases f <;> first | trivial | exact Q_mono he hx h

theorem chain_mono {l : List (Fr α φ)} (h : Core.chain (B.Lk d ad) l) : Core.chain (B.Lk d' ad') l := by
  induction l with
  | nil => trivial
  | cons u l ih =>
    cases l with
    | nil => trivial
    | cons l rest => exact ⟨Lk_mono he hx h.1, ih h.2⟩
end mono

theorem codes (P : φ → Prop) (hc : ∀ {v ad f rv ch ad' a k}, A.step v ad f rv ch = some (ad', .core a k) → ApiOK (fun _ => P) (fun _ => True) a)
    {s : SSt α φ δ} (h : SR A ad0 f0 s) : Codes (appT (α := α) P) s := by
  refine Codes.reach ?_ h
  intro v d f rv ch d' a k hs
  have key : ∀ x, (client A).step v d f rv ch = some (d', x) → x = .call a k → ApiOK (fun _ g => appT (α := α) P g) (fun _ => True) a := by
    intro x hs hx
    cases client_cs hs with
    | app g ad sa hA =>
      clear hs
      cases sa <;> simp [liftAct] at hx
      obtain ⟨rfl, -⟩ := hx
      rename_i a' k'
      have := hc hA
      clear hA
      cases a' <;> simp only [mapApi, ApiOK] at this ⊢ <;> first | trivial | exact this | skip
      intro f hf u
      simp only [Option.mem_def, Option.map_eq_some_iff] at hf
      obtain ⟨g, hg, rfl⟩ := hf
      exact this g hg u
    | sync f sd x hS =>
      cases hS
      case laRet K c => exact (laNext_call hx).elim
      case laEnd K c => exact (laNext_call hx).elim
      all_goals first | (cases hx; done) | (cases hx; trivial)
  exact key _ hs rfl

/-- Codes that threads and callbacks run have no role. -/
def cd (x : SFrame α φ) : Prop := ∃ g, x = .app g ∧ B.M g = none ∧ B.K g = none

theorem codes_cd {s : SSt α φ δ} (h : SR A ad0 f0 s) : Codes B.cd s := by
  have h1 := codes (fun g => B.M g = none ∧ B.K g = none) (fun h => B.code h) h
  have h2 := codes' h
  have key : ∀ x : SFrame α φ, appFam x → appT (fun g => B.M g = none ∧ B.K g = none) x → B.cd x := by
    intro x hx hy
    cases x <;> first | exact hx.elim | exact ⟨_, rfl, hy⟩
  refine ⟨fun t f hf => ?_, fun x hx => key x (h2.cb x hx) (h1.cb x hx)⟩
  have a1 := h2.code t f hf
  have a2 := h1.code t f hf
  cases f <;> first
    | trivial
    | exact fun u => key _ (a1 u) (a2 u)
    | exact fun g hg u => key _ (a1 g hg u) (a2 g hg u)

/-- What the core does to the stack. -/
theorem core_mv {s s' : SSt α φ δ} {t : Nat} {ch : Ch χ} {f : CF (STask α) (SFrame α φ)} {rest : List (Fr α φ)} (h : SR A ad0 f0 s)
    (hs : Core.step (client A) s (.th t ch) = some s') (hst : s.stk t = .core f :: rest) : s'.data = s.data ∧
    ((s'.stk t = rest) ∨ (s'.stk t = s.stk t ∧ (s'.thr t).exc = (s.thr t).exc) ∨ (∃ g, s'.stk t = .core g :: rest) ∨ (∃ g g', s'.stk t = .core g :: .core g' :: rest) ∨
      (s'.thr t).exc = none ∧ ∃ x g, s'.stk t = .client x :: .core g :: rest ∧ ((∃ k, x = (client A).run k ∨ x = (client A).destroy k) ∨ B.cd x)) := by
  have hcd := B.codes_cd h
  rcases step_cl hs with ⟨f, rest, d', a, hexc', hold, hstep, hdata, hact, -⟩ | ⟨f, rest, hexc', hold, hcs, hdata, -⟩ | ⟨e, hexc', hst', -, he', hdata, -⟩ |
    ⟨e, f, k, rest, hexc', hold, hf, hst', he', hdata, -⟩ | ⟨e, f, rest, hexc', hold, hf, hst', he', hdata, -⟩ |
    ⟨e, g', g'', rest, hexc', hold, hg, hst', he', hdata, -⟩ | ⟨e, g', rest, hexc', hold, hg, hst', he', hdata, -⟩ | ⟨hold, hst', he', hdata, -⟩
  · rw [hst] at hold; cases hold
  · rw [hst] at hold
    cases hold
    refine ⟨hdata, ?_⟩
    rcases hcs with ⟨new, h, hst', he⟩ | ⟨v, hv, hst', hrv, -⟩ | ⟨e, -, hst', he⟩ | ⟨-, hst', he⟩
    · have hco := hcd.code t f (by rw [hst]; simp)
      cases h <;> first
        | exact .inr (.inr (.inl ⟨_, hst'⟩))
        | exact .inr (.inr (.inr (.inl ⟨_, _, hst'⟩)))
        | skip
      all_goals (refine .inr (.inr (.inr (.inr ⟨?_, _, _, hst', ?_⟩))))
      all_goals first
        | exact .inl ⟨_, .inl rfl⟩
        | exact .inl ⟨_, .inr rfl⟩
        | exact .inr (hcd.cb _ ‹_›)
        | exact .inr (hco _ rfl 0)
        | skip
      all_goals first | exact he | exact he.1 | simp_all
    · exact .inl hst'
    · exact .inl hst'
    · exact .inr (.inl ⟨hst', he.trans hexc'.symm⟩)
  · exact ⟨hdata, .inr (.inl ⟨hst', he'.trans hexc'.symm⟩)⟩
  · rw [hst] at hold; cases hold
    exact ⟨hdata, .inr (.inr (.inr (.inr ⟨he', _, _, hst', .inl ⟨k, .inr rfl⟩⟩)))⟩
  · rw [hst] at hold; cases hold
    exact ⟨hdata, .inl hst'⟩
  · rw [hst] at hold; cases hold
  · rw [hst] at hold; cases hold
  · rw [hst] at hold; cases hold

theorem neu_low {d : SData α} {ad : δ} {l x : Fr α φ} {f : SFrame α φ} (hf : ∀ g, f ≠ .app g) (hr : ∀ p, f ≠ .xtRet p) (hr1 : ∀ p a, f ≠ .rtIn p a)
    (hr2 : ∀ p a, f ≠ .dtIn p a) (h : B.Lk d ad l (.client f)) : B.Lk d ad l x := by
  cases l with
  | core l => trivial
  | client l =>
    have key : ∀ p, B.In d ad p (.client f) → B.In d ad p x := by
      intro p h
      refine ⟨h.1, fun ho => ?_⟩
      obtain ⟨a, h1, h2⟩ := h.2 ho
      refine ⟨a, h1, fun u hu => ?_⟩
      obtain ⟨g, h3, -⟩ := h2 u hu
      cases h3; exact absurd rfl (hf g)
    cases l <;> first | trivial | exact key _ h | skip
    refine ⟨fun p hp => ?_, h.2⟩
    rcases h.1 p hp with h | ⟨a, h | h⟩ <;> cases h
    · exact absurd rfl (hr p)
    · exact absurd rfl (hr1 p a)
    · exact absurd rfl (hr2 p a)

theorem low_core {d : SData α} {ad : δ} {l x : Fr α φ} {f : CF (STask α) (SFrame α φ)} (h : B.Lk d ad l (.core f)) : B.Lk d ad l x := by
  cases l with
  | core l => trivial
  | client l =>
    have key : ∀ p, B.In d ad p (.core f) → B.In d ad p x := by
      intro p h
      refine ⟨h.1, fun ho => ?_⟩
      obtain ⟨a, h1, h2⟩ := h.2 ho
      refine ⟨a, h1, fun u hu => ?_⟩
      obtain ⟨g, h3, -⟩ := h2 u hu
      cases h3
    cases l <;> first | trivial | exact key _ h | skip
    refine ⟨fun p hp => ?_, h.2⟩
    rcases h.1 p hp with h | ⟨a, h | h⟩ <;> cases h

theorem low_app {d : SData α} {ad : δ} {l x : Fr α φ} {g : φ} (hg : B.M g = none) (h : B.Lk d ad l (.client (.app g))) : B.Lk d ad l x := by
  cases l with
  | core l => trivial
  | client l =>
    have key : ∀ p, B.In d ad p (.client (.app g)) → B.In d ad p x := by
      intro p h
      refine ⟨h.1, fun ho => ?_⟩
      obtain ⟨a, h1, h2⟩ := h.2 ho
      refine ⟨a, h1, fun u hu => ?_⟩
      obtain ⟨g, h3, h4⟩ := h2 u hu
      cases h3; rw [hg] at h4; cases h4
    cases l <;> first | trivial | exact key _ h | skip
    refine ⟨fun p hp => ?_, h.2⟩
    rcases h.1 p hp with h | ⟨a, h | h⟩ <;> cases h

/-- The other frame of the same wrapper. -/
theorem low_mm {d : SData α} {ad : δ} {l : Fr α φ} {g k : φ} (hg : B.M g = B.M k) (h : B.Lk d ad l (.client (.app g))) :
    B.Lk d ad l (.client (.app k)) := by
  cases l with
  | core l => trivial
  | client l =>
    have key : ∀ p, B.In d ad p (.client (.app g)) → B.In d ad p (.client (.app k)) := by
      intro p h
      refine ⟨h.1, fun ho => ?_⟩
      obtain ⟨a, h1, h2⟩ := h.2 ho
      refine ⟨a, h1, fun u hu => ?_⟩
      obtain ⟨g, h3, h4⟩ := h2 u hu
      cases h3; exact ⟨k, rfl, hg ▸ h4⟩
    cases l <;> first | trivial | exact key _ h | skip
    refine ⟨fun p hp => ?_, h.2⟩
    rcases h.1 p hp with h | ⟨a, h | h⟩ <;> cases h

/-- Only application code lies directly above the body of a wrapper. -/
theorem Q_of_In {d : SData α} {ad : δ} {p : Nat} {x : Fr α φ} (h : B.In d ad p x) (hx : ∀ g u, x = .client (.app g) → B.M g = some u → rdy d u) :
    B.Q d ad p := by
  refine ⟨h.1, fun ho => ?_⟩
  obtain ⟨a, h1, h2⟩ := h.2 ho
  refine ⟨a, h1, fun u hu => ?_⟩
  obtain ⟨g, h3, h4⟩ := h2 u hu
  exact hx g u h3 h4

theorem chain_rep {d : SData α} {ad : δ} {x y : Fr α φ} {rest : List (Fr α φ)} (h : Core.chain (B.Lk d ad) (x :: rest))
    (hl : ∀ l, B.Lk d ad l x → B.Lk d ad l y) : Core.chain (B.Lk d ad) (y :: rest) := by
  cases rest with
  | nil => trivial
  | cons l r => exact ⟨hl l h.1, h.2⟩

theorem chain_tl {d : SData α} {ad : δ} {x : Fr α φ} {rest : List (Fr α φ)} (h : Core.chain (B.Lk d ad) (x :: rest)) :
    Core.chain (B.Lk d ad) rest := by
  cases rest with
  | nil => trivial
  | cons l r => exact h.2

theorem pop {d : SData α} {ad : δ} {x l : Fr α φ} {e : Option Exn} (h : B.Lk d ad l x) (ha : Adj (α := α) l x)
    (h1 : ∀ g u, x = .client (.app g) → B.M g = some u → rdy d u)
    (h2 : ∀ p, x = .client (.xtRet p) → rdy d p ∧ e = none) (h3 : ∀ p a, x ≠ .client (.rtIn p a) ∧ x ≠ .client (.dtIn p a))
    (h4 : ∀ f p, x = .client f → rdFam p f → l = .client (.xtRet p) → rdy d p) : B.Tp d ad e l := by
  cases l with
  | core l => trivial
  | client l =>
    cases l <;> first
      | trivial
      | exact Q_of_In B h h1
      | skip
    · refine ⟨fun p hp => ?_, fun u hu => ?_⟩
      · rcases h.1 p hp with h | ⟨a, h | h⟩
        · exact h2 p h
        · exact absurd h (h3 p a).1
        · exact absurd h (h3 p a).2
      · rcases h.1 u (h.2 u hu) with h | ⟨a, h | h⟩
        · exact (h2 u h).2
        · exact absurd h (h3 u a).1
        · exact absurd h (h3 u a).2
    · rename_i p
      cases x with
      | core f => exact ha.elim
      | client f => exact h4 f p rfl ha rfl

theorem ok (hX : ∀ {s : SSt α φ δ} {t : Nat} {f : SFrame α φ}, SR A ad0 f0 s → .client f ∈ s.stk t → T.fr s.data.sd s.data.ad t f)
    (hL : ∀ {s : SSt α φ δ} {t : Nat} {ch : Ch χ} {g : φ} {rest : List (Fr α φ)} {ad' : δ} {sa : SAct α φ}, SR A ad0 f0 s →
      (s.thr t).exc = none → s.stk t = .client (.app g) :: rest → A.step (s.view t) s.data.ad g (s.thr t).rv ch = some (ad', sa) →
      ∀ {p a}, T.X s.data.sd s.data.ad p a → T.X s.data.sd ad' p a) {s : SSt α φ δ} (h : SR A ad0 f0 s) : B.Ok s := by
  refine Reach.induct B.Ok ?_ ?_ h
  · constructor
    · intro t
      by_cases ht : t = 0
      · subst ht; simp [Core.init, St.stk, Core.chain]
      · simp [Core.init, St.stk, upd_ne _ _ ht, Core.chain]
    · intro t f rest hst
      by_cases ht : t = 0
      · subst ht; simp [Core.init, St.stk] at hst; rw [← hst.1]; exact ⟨by simp [B.start], by simp [B.start]⟩
      · simp [Core.init, St.stk, upd_ne _ _ ht] at hst
    · intro t f hst
      by_cases ht : t = 0
      · subst ht; simp [Core.init, St.stk] at hst; rw [hst]; trivial
      · simp [Core.init, St.stk, upd_ne _ _ ht] at hst
    · intro t p r h; simp [Core.init] at h
  · intro s l s' hr q hs
    cases l with
    | tick n => rw [step_tick _ s s' n hs]; exact ⟨q.chain, q.top, q.fr, q.sat⟩
    | th t ch =>
      have hext := step_ext hs
      have hx : ∀ {p a}, T.X s.data.sd s.data.ad p a → T.X s'.data.sd s'.data.ad p a := by
        intro p a h
        cases mv hr hs with
        | app g rest a he hst hd hact hA => obtain ⟨ch, hA⟩ := hA; rw [hd]; exact hL hr he hst hA h
        | sync f rest a he hst hS hact had => rw [had]; exact (T.mono hext).X h
        | hand e f f' rest he hst0 hn hf hst' he' hd had => rw [hd, had]; exact h
        | drop e f rest he hst0 hn hf hst' he' hd had => rw [hd, had]; exact h
        | core f rest pre hst0 hpre hst' hd had => rw [hd, had]; exact h
        | still hst' he' hd had => rw [hd, had]; exact h
      have hlk : ∀ {l x}, B.Lk s.data.sd s.data.ad l x → B.Lk s'.data.sd s'.data.ad l x := Lk_mono hext hx
      have htp : ∀ {e l}, B.Tp s.data.sd s.data.ad e l → B.Tp s'.data.sd s'.data.ad e l := Tp_mono hext hx
      have hfq : ∀ {f}, B.FQ s.data.sd s.data.ad f → B.FQ s'.data.sd s'.data.ad f := FQ_mono hext hx
      have hch : ∀ {l}, Core.chain (B.Lk s.data.sd s.data.ad) l → Core.chain (B.Lk s'.data.sd s'.data.ad) l := chain_mono hext hx
      -- the part about other threads and the log
      have key : Core.chain (B.Lk s'.data.sd s'.data.ad) (s'.stk t) → (∀ f rest, s'.stk t = f :: rest → B.Tp s'.data.sd s'.data.ad (s'.thr t).exc f) →
          (∀ f, .client f ∈ s'.stk t → B.FQ s'.data.sd s'.data.ad f) → B.Ok s' := by
        intro k1 k2 k3
        have sat : ∀ u p r, .sat u p r ∈ s'.data.sd.slog → B.Q s'.data.sd s'.data.ad p := by
          intro u p r h
          have old : .sat u p r ∈ s.data.sd.slog → B.Q s'.data.sd s'.data.ad p := fun h => Q_mono hext hx (q.sat u p r h)
          cases mv hr hs with
          | sync f rest a he hst hS hact had =>
            rcases hS.sat h with h | rfl
            · exact old h
            · have hlt : p < s.data.sd.nst := svr_lt hr (t := t) (p := p) (r := r) (g := .srSet p r) (by rw [hst]; simp) ⟨rfl, rfl⟩
              refine ⟨lt_mono hext hlt, fun ho => ?_⟩
              have ho' : (s.data.sd.st p).owner = .ext := by rw [← hext.owner hlt]; exact ho
              have hb := below hr t _ rest p r hst ⟨rfl, rfl⟩ ⟨hlt, by rw [ho']; simp⟩
              have hq : B.Q s.data.sd s.data.ad p := by
                rcases hb with ⟨a, b, h1, h2, h3⟩ | ⟨a, b, h1, h2, h3⟩ | ⟨a, h1, h2⟩
                · exact q.fr t (.ftDone p) (by rw [hst, h1]; simp)
                · exact q.fr t (.ftEnd p) (by rw [hst, h1]; simp)
                · exact q.fr t (.pdEnd p) (by rw [hst, h1]; simp)
              exact (Q_mono hext hx hq).2 ho
          | app g rest a he hst hd hact hA => rw [hd] at h; exact old h
          | hand e f f' rest he hst0 hn hf hst' he' hd had => rw [hd] at h; exact old h
          | drop e f rest he hst0 hn hf hst' he' hd had => rw [hd] at h; exact old h
          | core f rest pre hst0 hpre hst' hd had => rw [hd] at h; exact old h
          | still hst' he' hd had => rw [hd] at h; exact old h
        have oth : ∀ u, u ≠ t → (s'.stk u = s.stk u ∧ (s.stk u ≠ [] → (s'.thr u).exc = (s.thr u).exc)) ∨ s.stk u = [] ∧ ∃ g, s'.stk u = [.client g] ∧ B.cd g :=
          fun u hu => mv_othT hr (B.codes_cd hr) hs hu
        refine ⟨fun u => ?_, fun u f rest hst => ?_, fun u f hf => ?_, sat⟩
        · by_cases hu : u = t
          · subst hu; exact k1
          · rcases oth u hu with ⟨h1, -⟩ | ⟨-, g, h1, -⟩
            · rw [h1]; exact hch (q.chain u)
            · rw [h1]; trivial
        · by_cases hu : u = t
          · subst hu; exact k2 f rest hst
          · rcases oth u hu with ⟨h1, h2⟩ | ⟨-, g, h1, x, rfl, h2, h3⟩
            · rw [h1] at hst
              rw [h2 (by rw [hst]; simp)]
              exact htp (q.top u f rest hst)
            · rw [h1] at hst; cases hst
              exact ⟨by simp [h3], by simp [h2]⟩
        · by_cases hu : u = t
          · subst hu; exact k3 f hf
          · rcases oth u hu with ⟨h1, -⟩ | ⟨-, g, h1, x, rfl, h2, h3⟩
            · rw [h1] at hf; exact hfq (q.fr u f hf)
            · rw [h1] at hf; simp at hf; subst hf; trivial
      have qc := q.chain t
      have qt := q.top t
      have qf := q.fr t
      have hadj := (stk_ok hr).chain t
      have hr' : SR A ad0 f0 s' := Reach.step hr hs
      have hok' := stk_ok hr'
      cases mv hr hs with
      | app g rest a he hst hd hact hA =>
        obtain ⟨ch0, hA⟩ := hA
        rw [hst] at qc qt hadj
        replace qt := qt _ _ rfl
        replace qc := hch qc
        have qt' := htp qt
        have hfr : ∀ f, .client f ∈ rest → B.FQ s'.data.sd s'.data.ad f := fun f hf => hfq (qf f (by rw [hst]; simp [hf]))
        have kno : ∀ k, (liftAct a).cont = some (.app k) → (∀ b k, a ≠ .sync b k) → B.K k = none ∧ B.M k = none := by
          intro k hk hno
          constructor
          · cases hK : B.K k with
            | none => rfl
            | some p => obtain ⟨b, h | h⟩ := B.kk hA hk hK <;> exact absurd h (hno _ _)
          · cases hM : B.M k with
            | none => rfl
            | some u =>
              rcases B.mm hA (B.mc hA hk hM) with ⟨-, v, h⟩ | ⟨b, k', h | h, -⟩ | h
              · subst h; cases hk
              · exact absurd h (hno _ _)
              · exact absurd h (hno _ _)
              · subst h; cases hk
        have gno : (∀ b k, a ≠ .sync b k) → (∀ v, a ≠ .ret v) → a ≠ .terminate → B.M g = none := by
          intro h1 h2 h3
          cases hM : B.M g with
          | none => rfl
          | some u =>
            rcases B.mm hA hM with ⟨-, v, h⟩ | ⟨b, k', h | h, -⟩ | h
            · exact absurd h (h2 v)
            · exact absurd h (h1 _ _)
            · exact absurd h (h1 _ _)
            · exact absurd h h3
        have one : ∀ {l x} {ad : δ}, B.Lk s'.data.sd ad l x → B.Lk s'.data.sd ad l x := fun h => h
        cases a with
        | goto k =>
          have hg := gno (by simp) (by simp) (by simp)
          obtain ⟨k1, k2⟩ := kno k rfl (by simp)
          obtain ⟨hst', he', -⟩ := hact
          refine key (by rw [hst']; exact chain_rep B qc (fun l h => low_app B hg h)) ?_ ?_
          · intro f r h; rw [hst'] at h; cases h; exact ⟨by simp [k1], by simp [k2]⟩
          · intro f h; rw [hst'] at h
            rcases List.mem_cons.1 h with h | h
            · cases h; trivial
            · exact hfr f h
        | push x k =>
          have hg := gno (by simp) (by simp) (by simp)
          obtain ⟨k1, k2⟩ := kno k rfl (by simp)
          obtain ⟨x2, x1⟩ := B.push hA
          obtain ⟨hst', he', -⟩ := hact
          refine key (by rw [hst']; exact ⟨⟨by simp [k1], by simp [k2]⟩, chain_rep B qc (fun l h => low_app B hg h)⟩) ?_ ?_
          · intro f r h; rw [hst'] at h; cases h; exact ⟨by simp [x1], by simp [x2]⟩
          · intro f h; rw [hst'] at h
            rcases List.mem_cons.1 h with h | h
            · cases h; trivial
            rcases List.mem_cons.1 h with h | h
            · cases h; trivial
            · exact hfr f h
        | core b k =>
          have hg := gno (by simp) (by simp) (by simp)
          obtain ⟨k1, k2⟩ := kno k rfl (by simp)
          obtain ⟨hst', he', -⟩ := hact
          refine key (by rw [hst']; exact ⟨⟨by simp [k1], by simp [k2]⟩, chain_rep B qc (fun l h => low_app B hg h)⟩) ?_ ?_
          · intro f r h; rw [hst'] at h; cases h; trivial
          · intro f h; rw [hst'] at h
            rcases List.mem_cons.1 h with h | h
            · cases h
            rcases List.mem_cons.1 h with h | h
            · cases h; trivial
            · exact hfr f h
        | sync b k =>
          obtain ⟨hst', he', -⟩ := hact
          have hfe : ∀ f, b.entry = (f : SFrame α φ) → (∀ d ad, B.FQ d ad f) ∧ ∀ d ad e, B.Tp d ad e (.client f) := by
            rintro f rfl
            cases b <;> exact ⟨fun _ _ => trivial, fun _ _ _ => trivial⟩
          refine key ?_ ?_ ?_
          · rw [hst']
            refine ⟨⟨fun p hp => ?_, fun u hu => ?_⟩, chain_rep B qc (fun l h => ?_)⟩
            · obtain ⟨c, h | h⟩ := B.kk hA rfl hp <;> cases h
              · exact .inr ⟨c, .inl rfl⟩
              · exact .inr ⟨c, .inr rfl⟩
            · rcases B.mm hA (B.mc hA rfl hu) with ⟨-, v, h⟩ | ⟨b, k', h | h, h1, h2⟩ | h
              · cases h
              · cases h; exact h2
              · cases h; exact h2
              · cases h
            · cases hM : B.M g with
              | none => exact low_app B hM h
              | some u =>
                rcases B.mm hA hM with ⟨-, v, h'⟩ | ⟨b, k', h' | h', h1, h2⟩ | h'
                · cases h'
                · cases h'; exact low_mm B (hM.trans h1.symm) h
                · cases h'; exact low_mm B (hM.trans h1.symm) h
                · cases h'
          · intro f r h; rw [hst'] at h; cases h; exact (hfe _ rfl).2 _ _ _
          · intro f h; rw [hst'] at h
            rcases List.mem_cons.1 h with h | h
            · cases h; exact (hfe _ rfl).1 _ _
            rcases List.mem_cons.1 h with h | h
            · cases h; trivial
            · exact hfr f h
        | ret v =>
          obtain ⟨hst', he', -⟩ := hact
          refine key (by rw [hst']; exact chain_tl B qc) ?_ (by rw [hst']; exact hfr)
          intro l r h
          rw [hst'] at h; subst h
          refine pop B qc.1 hadj.1 ?_ (by simp) (by simp) (by rintro f p h h2; cases h; exact (by rcases h2 with h | h <;> exact h.elim))
          intro g' u h hM
          cases h
          rcases B.mm hA hM with ⟨h, -⟩ | ⟨b, k', h | h, -⟩ | h
          · exact (qt'.1 u h).1
          · cases h
          · cases h
          · cases h
        | throw e =>
          have hg := gno (by simp) (by simp) (by simp)
          obtain ⟨hst', he'⟩ := hact
          refine key (by rw [hst']; exact chain_tl B qc) ?_ (by rw [hst']; exact hfr)
          intro l r h
          rw [hst'] at h; subst h
          refine pop B qc.1 hadj.1 ?_ (by simp) (by simp) (by rintro f p h h2; cases h; exact (by rcases h2 with h | h <;> exact h.elim))
          intro g' u h hM
          cases h; rw [hg] at hM; cases hM
        | terminate =>
          obtain ⟨hst', -, he'⟩ := hact
          rw [hst] at hst'
          refine key (by rw [hst']; exact qc) ?_ ?_
          · intro f r h; rw [hst'] at h; cases h; rw [he', ← he]; exact qt'
          · rw [hst', ← hst]; exact fun f hf => hfq (qf f hf)
      | sync f rest a he hst hS hact had =>
        rw [hst] at qc qt hadj
        replace qt := qt _ _ rfl
        replace qc := hch qc
        have qt' := htp qt
        have qF : B.FQ s'.data.sd s'.data.ad f := hfq (qf f (by rw [hst]; simp))
        have hfr : ∀ f, .client f ∈ rest → B.FQ s'.data.sd s'.data.ad f := fun f hf => hfq (qf f (by rw [hst]; simp [hf]))
        have napp : ∀ g, f ≠ .app g := by rintro g rfl; exact hS.not_app
        have neuT : ∀ {g : SFrame α φ} {e}, neu g → B.Tp s'.data.sd s'.data.ad e (.client g) := by
          intro g e h; cases g <;> first | exact h.elim | trivial
        have neuF : ∀ {g : SFrame α φ}, neu g → B.FQ s'.data.sd s'.data.ad g := by
          intro g h; cases g <;> first | exact h.elim | trivial
        have neuL : ∀ {g : SFrame α φ} {x}, neu g → B.Lk s'.data.sd s'.data.ad (.client g) x := by
          intro g x h; cases g <;> first | exact h.elim | trivial
        -- one frame replaced by another
        have g1 : ∀ {g : SFrame α φ}, s'.stk t = .client g :: rest → (∀ l, B.Lk s'.data.sd s'.data.ad l (.client f) → B.Lk s'.data.sd s'.data.ad l (.client g)) →
            B.Tp s'.data.sd s'.data.ad (s'.thr t).exc (.client g) → B.FQ s'.data.sd s'.data.ad g → B.Ok s' := by
          intro g hst' h1 h2 h3
          refine key (by rw [hst']; exact chain_rep B qc h1) ?_ ?_
          · intro f r h; rw [hst'] at h; cases h; exact h2
          · intro f h; rw [hst'] at h
            rcases List.mem_cons.1 h with h | h
            · cases h; exact h3
            · exact hfr f h
        have g2 : ∀ {x : Fr α φ} {g : SFrame α φ}, s'.stk t = x :: .client g :: rest →
            (∀ l, B.Lk s'.data.sd s'.data.ad l (.client f) → B.Lk s'.data.sd s'.data.ad l (.client g)) → B.Lk s'.data.sd s'.data.ad (.client g) x →
            B.Tp s'.data.sd s'.data.ad (s'.thr t).exc x → (∀ y, x = .client y → B.FQ s'.data.sd s'.data.ad y) → B.FQ s'.data.sd s'.data.ad g → B.Ok s' := by
          intro x g hst' h1 h0 h2 h3 h4
          refine key (by rw [hst']; exact ⟨h0, chain_rep B qc h1⟩) ?_ ?_
          · intro f r h; rw [hst'] at h; cases h; exact h2
          · intro f h; rw [hst'] at h
            rcases List.mem_cons.1 h with h | h
            · exact h3 f h.symm
            rcases List.mem_cons.1 h with h | h
            · cases h; exact h4
            · exact hfr f h
        have nl : (∀ p, f ≠ .xtRet p) → (∀ p a, f ≠ .rtIn p a) → (∀ p a, f ≠ .dtIn p a) →
            ∀ {g : SFrame α φ}, ∀ l, B.Lk s'.data.sd s'.data.ad l (.client f) → B.Lk s'.data.sd s'.data.ad l (.client g) :=
          fun h1 h2 h3 g l h => neu_low B napp h1 h2 h3 h
        have rts : ∀ p, ((∃ a, f = .rtIn p a) ∨ ∃ a, f = .dtIn p a) →
            ∀ l, B.Lk s'.data.sd s'.data.ad l (.client f) → B.Lk s'.data.sd s'.data.ad l (.client (.xtRet p)) := by
          intro p hf l h
          cases l with
          | core l => trivial
          | client l =>
            have key : ∀ q, B.In s'.data.sd s'.data.ad q (.client f) → B.In s'.data.sd s'.data.ad q (.client (.xtRet p)) := by
              intro q h
              refine ⟨h.1, fun ho => ?_⟩
              obtain ⟨a, h1, h2⟩ := h.2 ho
              refine ⟨a, h1, fun u hu => ?_⟩
              obtain ⟨g, h3, -⟩ := h2 u hu
              cases h3; exact absurd rfl (napp g)
            cases l <;> first | trivial | exact key _ h | skip
            refine ⟨fun q hq => ?_, h.2⟩
            rcases hf with ⟨a, rfl⟩ | ⟨a, rfl⟩ <;> rcases h.1 q hq with h | ⟨a, h | h⟩ <;> cases h <;> exact .inl rfl
        have notret : ∀ {b : Act (STask α) (SFrame α φ)}, a = b → (∀ x k, b ≠ .push x k) → b ≠ .terminate → ∀ p a, f ≠ .rtIn p a ∧ f ≠ .dtIn p a := by
          rintro b rfl hb1 hb2 p c
          generalize s'.data.sd = d' at hS
          constructor <;> rintro rfl <;> cases hS <;> first | exact hb1 _ _ rfl | exact hb2 rfl
        have notxt : ∀ {b : Act (STask α) (SFrame α φ)}, a = b → (∀ v, b ≠ .ret v) → ∀ p, f ≠ .xtRet p := by
          rintro b rfl hb1 p
          generalize s'.data.sd = d' at hS
          rintro rfl; cases hS; exact hb1 _ rfl
        have hXf := hX hr (t := t) (f := f) (by rw [hst]; simp)
        have h1F := ty1_F hr (t := t) (g := f) (by rw [hst]; simp)
        have hna := ss_na hS
        cases hna with
        | goto hg =>
          exact g1 hact.1 (nl (notxt rfl (by simp)) (fun p b => (notret rfl (by simp) (by simp) p b).1) (fun p b => (notret rfl (by simp) (by simp) p b).2)) (neuT hg) (neuF hg)
        | push hg hk =>
          rename_i g k
          have : ∀ p c, f ≠ .rtIn p c ∧ f ≠ .dtIn p c := by
            intro p c
            generalize s'.data.sd = d' at hS
            constructor <;> rintro rfl <;> cases hS <;> exact hk
          exact g2 hact.1 (nl (notxt rfl (by simp)) (fun p b => (this p b).1) (fun p b => (this p b).2)) (neuL hk) (neuT hg)
            (by rintro y h; cases h; exact neuF hg) (neuF hk)
        | call hk =>
          exact g2 hact.1 (nl (notxt rfl (by simp)) (fun p b => (notret rfl (by simp) (by simp) p b).1) (fun p b => (notret rfl (by simp) (by simp) p b).2))
            (neuL hk) trivial (by simp) (neuF hk)
        | ret =>
          rename_i v
          obtain ⟨hst', he', -⟩ := hact
          refine key (by rw [hst']; exact chain_tl B qc) ?_ (by rw [hst']; exact hfr)
          intro l r h
          rw [hst'] at h; subst h
          refine pop B qc.1 hadj.1 (by rintro g u h; cases h; exact absurd rfl (napp g)) ?_ ?_ ?_
          · rintro p h; cases h; exact ⟨qt', he'⟩
          · intro p b
            obtain ⟨h1, h2⟩ := notret rfl (by simp) (by simp) p b
            exact ⟨fun h => h1 (Frame.client.inj h), fun h => h2 (Frame.client.inj h)⟩
          · rintro f' p h hf -
            cases h
            have : afterSet p f ∨ f = .pdIn p := by
              generalize s'.data.sd = d' at hS
              generalize hb : (Act.ret v : Act (STask α) (SFrame α φ)) = b at hS
              rcases hf with hf | hf
              · cases hS <;> first | exact hf.elim | (cases hb; done) | exact .inl hf
              · cases hS <;> first | exact hf.elim | (cases hb; done) | exact .inl hf | exact .inr (by rw [show _ = p from hf])
            rcases this with h | h
            · exact rdy_mono hext (topReady hr t f _ p hst h)
            · subst h
              have : rdy s.data.sd p := by
                have hlt : p < s.data.sd.nst := h1F.1
                generalize s'.data.sd = d' at hS
                cases hS
                exact ⟨hlt, ‹_›⟩
              exact rdy_mono hext this
        | throw =>
          rename_i e
          obtain ⟨hst', he'⟩ := hact
          refine key (by rw [hst']; exact chain_tl B qc) ?_ (by rw [hst']; exact hfr)
          intro l r h
          rw [hst'] at h; subst h
          refine pop B qc.1 hadj.1 (by rintro g u h; cases h; exact absurd rfl (napp g)) ?_ ?_ ?_
          · rintro p h; cases h; exact absurd rfl (notxt rfl (by simp) p)
          · intro p b
            obtain ⟨h1, h2⟩ := notret rfl (by simp) (by simp) p b
            exact ⟨fun h => h1 (Frame.client.inj h), fun h => h2 (Frame.client.inj h)⟩
          · rintro f' p h hf rfl
            exact absurd trivial (hok'.exc t _ _ (by simp [he']) hst')
        | term =>
          obtain ⟨hst', -, he'⟩ := hact
          rw [hst] at hst'
          refine key (by rw [hst']; exact qc) ?_ ?_
          · intro f r h; rw [hst'] at h; cases h; rw [he', ← he]; exact qt'
          · rw [hst', ← hst]; exact fun f hf => hfq (qf f hf)
        | rt => exact g2 hact.1 (rts _ (.inl ⟨_, rfl⟩)) trivial trivial (by rintro y h; cases h; trivial) trivial
        | dt => exact g2 hact.1 (rts _ (.inr ⟨_, rfl⟩)) trivial trivial (by rintro y h; cases h; trivial) trivial
        | run =>
          rename_i p b
          refine g2 hact.1 (nl (by simp) (by simp) (by simp)) ⟨lt_mono hext h1F.1, fun _ => ⟨b, hx hXf.2, fun u hu => ⟨_, rfl, (B.run b).1.trans hu⟩⟩⟩
            ⟨by simp [(B.run b).2.2.1], fun _ _ => hact.2.1⟩ (by rintro y h; cases h; trivial) trivial
        | dtor =>
          rename_i p b
          refine g2 hact.1 (nl (by simp) (by simp) (by simp)) ⟨lt_mono hext h1F.1, fun _ => ⟨b, hx hXf.2, fun u hu => ⟨_, rfl, (B.run b).2.1.trans hu⟩⟩⟩
            ⟨by simp [(B.run b).2.2.2], fun _ _ => hact.2.1⟩ (by rintro y h; cases h; trivial) trivial
        | fset => exact g2 hact.1 (nl (by simp) (by simp) (by simp)) trivial trivial (by rintro y h; cases h; trivial) qt'
        | threw => exact g1 hact.1 (nl (by simp) (by simp) (by simp)) trivial qF
        | exc => exact g2 hact.1 (nl (by simp) (by simp) (by simp)) trivial trivial (by rintro y h; cases h; trivial) qF
        | pd => exact g2 hact.1 (nl (by simp) (by simp) (by simp)) trivial trivial (by rintro y h; cases h; trivial) qt'
      | hand e f f' rest he hst hn hf hst' he' hd had =>
        rw [hst] at qc qt hadj
        replace qt := qt _ _ rfl
        replace qc := hch qc
        have qt' := htp qt
        have qF : B.FQ s'.data.sd s'.data.ad f := hfq (qf f (by rw [hst]; simp))
        have hfr : ∀ f, .client f ∈ rest → B.FQ s'.data.sd s'.data.ad f := fun f hf => hfq (qf f (by rw [hst]; simp [hf]))
        have g1 : (∀ l, B.Lk s'.data.sd s'.data.ad l (.client f) → B.Lk s'.data.sd s'.data.ad l (.client f')) →
            B.Tp s'.data.sd s'.data.ad (s'.thr t).exc (.client f') → B.FQ s'.data.sd s'.data.ad f' → B.Ok s' := by
          intro h1 h2 h3
          refine key (by rw [hst']; exact chain_rep B qc h1) ?_ ?_
          · intro f r h; rw [hst'] at h; cases h; exact h2
          · intro f h; rw [hst'] at h
            rcases List.mem_cons.1 h with h | h
            · cases h; exact h3
            · exact hfr f h
        cases f <;> simp only [sThrow, reduceCtorEq, Option.some.injEq] at hf
        case app g =>
          rw [Option.map_eq_some_iff] at hf
          obtain ⟨k, hk, rfl⟩ := hf
          have hM : B.M g = none := by
            cases hM : B.M g with
            | none => rfl
            | some u => have := qt.2 u hM; rw [he] at this; cases this
          exact g1 (fun l h => low_app B hM h) ⟨by simp [(B.throw hk).2], by simp [(B.throw hk).1]⟩ trivial
        all_goals subst hf
        all_goals refine g1 (fun l h => neu_low B (by simp) (by simp) (by simp) (by simp) h) ?_ ?_
        all_goals first | trivial | exact qt' | exact qF
      | drop e f rest he hst hn hf hst' he' hd had =>
        rw [hst] at qc qt hadj
        replace qt := qt _ _ rfl
        replace qc := hch qc
        have hfr : ∀ f, .client f ∈ rest → B.FQ s'.data.sd s'.data.ad f := fun f hf => hfq (qf f (by rw [hst]; simp [hf]))
        refine key (by rw [hst']; exact chain_tl B qc) ?_ (by rw [hst']; exact hfr)
        intro l r h
        rw [hst'] at h; subst h
        refine pop B qc.1 hadj.1 ?_ ?_ ?_ ?_
        · rintro g u h hM; cases h
          have := qt.2 u hM; rw [he] at this; cases this
        · rintro p h; cases h; exact absurd trivial hn
        · intro p b; constructor <;> intro h <;> cases h <;> exact absurd trivial hn
        · rintro f' p h - rfl
          exact absurd trivial (hok'.exc t _ _ (by simp [he']) hst')
      | core f rest pre hst hpre hst'0 hd had =>
        obtain ⟨-, hcm⟩ := core_mv B hr hs hst
        rw [hst] at qc hadj
        replace qc := hch qc
        have hfr : ∀ f, .client f ∈ rest → B.FQ s'.data.sd s'.data.ad f := fun f hf => hfq (qf f (by rw [hst]; simp [hf]))
        rcases hcm with hst' | ⟨hst', he'⟩ | ⟨g, hst'⟩ | ⟨g, g', hst'⟩ | ⟨he', x, g, hst', hx'⟩
        · refine key (by rw [hst']; exact chain_tl B qc) ?_ (by rw [hst']; exact hfr)
          intro l r h
          rw [hst'] at h; subst h
          exact pop B qc.1 hadj.1 (by simp) (by simp) (by simp) (by simp)
        · rw [hst] at hst'
          refine key (by rw [hst']; exact qc) ?_ ?_
          · intro f r h; rw [hst'] at h; cases h; trivial
          · rw [hst', ← hst]; exact fun f hf => hfq (qf f hf)
        · refine key (by rw [hst']; exact chain_rep B qc (fun l h => low_core B h)) ?_ ?_
          · intro f r h; rw [hst'] at h; cases h; trivial
          · intro f h; rw [hst'] at h
            rcases List.mem_cons.1 h with h | h
            · cases h
            · exact hfr f h
        · refine key (by rw [hst']; exact ⟨trivial, chain_rep B qc (fun l h => low_core B h)⟩) ?_ ?_
          · intro f r h; rw [hst'] at h; cases h; trivial
          · intro f h; rw [hst'] at h
            rcases List.mem_cons.1 h with h | h
            · cases h
            rcases List.mem_cons.1 h with h | h
            · cases h
            · exact hfr f h
        · have hxx : B.Tp s'.data.sd s'.data.ad (s'.thr t).exc (.client x) ∧ B.FQ s'.data.sd s'.data.ad x := by
            rw [he']
            rcases hx' with ⟨k, rfl | rfl⟩ | ⟨y, rfl, h1, h2⟩
            · cases k <;> first
                | exact ⟨trivial, trivial⟩
                | exact ⟨⟨by simp [(B.run _).2.2.1], by simp⟩, trivial⟩
            · cases k <;> first
                | exact ⟨trivial, trivial⟩
                | exact ⟨⟨by simp [(B.run _).2.2.2], by simp⟩, trivial⟩
            · exact ⟨⟨by simp [h2], by simp⟩, trivial⟩
          refine key (by rw [hst']; exact ⟨trivial, chain_rep B qc (fun l h => low_core B h)⟩) ?_ ?_
          · intro f r h; rw [hst'] at h; cases h; exact hxx.1
          · intro f h; rw [hst'] at h
            rcases List.mem_cons.1 h with h | h
            · cases h; exact hxx.2
            rcases List.mem_cons.1 h with h | h
            · cases h
            · exact hfr f h
      | still hst' he' hd had =>
        refine key (by rw [hst']; exact hch qc) ?_ (by rw [hst']; exact fun f hf => hfq (qf f hf))
        intro f r h
        rw [hst'] at h
        rcases he' with he' | he'
        · rw [he']; exact htp (qt f r h)
        · rw [he'] at h; cases h

end AR
end
end Sync
end Itc
