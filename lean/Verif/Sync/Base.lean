import Verif.Sync.Stack

/-!
# Invariants of the synchronisation layer: wrappers, basic typing, the guard of a shared state (proof infrastructure, no claims)
-/
namespace Itc
namespace Sync
open Core
section
variable {α φ δ χ : Type}

abbrev SSt (α φ δ : Type) := St (STask α) (SFrame α φ) (Data α δ)

/-- States of the layer reachable with application `A`, started in its program point `f` with data `ad`. -/
abbrev SR (A : App α φ δ χ) (ad : δ) (f : φ) (s : SSt α φ δ) : Prop :=
  Core.Reach (client A) { sd := {}, ad := ad } (.app f) s

/-! ## Wrappers: only the steps of this layer have to be examined -/

/-- `Typing` for facts that do not concern application code. -/
structure STy (A : App α φ δ χ) (J : SSt α φ δ → Prop) where
  I : SData α → Prop
  PF : SData α → Nat → SFrame α φ → Prop
  PT : SData α → STask α → Prop
  app : ∀ {d t g}, PF d t (.app g)
  entry : ∀ {d t} {a : SApi α}, PF d t a.entry
  tapp : ∀ {d a}, PT d (.app a)
  step : ∀ {s : SSt α φ δ} {t : Nat} {f : SFrame α φ} {rest : List (Fr α φ)} {d' : SData α}
    {a : Act (STask α) (SFrame α φ)}, J s → (s.thr t).exc = none → s.stk t = .client f :: rest → I s.data.sd → PF s.data.sd t f →
    SS A.run A.destroy (s.view t) s.data.sd (s.thr t).rv f d' a →
    I d' ∧ (∀ u g, PF s.data.sd u g → PF d' u g) ∧ (∀ k, PT s.data.sd k → PT d' k) ∧ ActOK (PF d') (PT d') t a
  done : ∀ {d t}, PF d t (.done .unit)
  task : ∀ {d p a}, PT d (.fut p a) → ∀ t, PF d t (.ftRun p a) ∧ PF d t (.ftDtor p a)
  throw : ∀ {s : SSt α φ δ} {t f rest e f'}, J s → s.stk t = .client f :: rest → (s.thr t).exc = some e → PF s.data.sd t f →
    ¬ nt (α := α) (.client f) → sThrow A.onThrow f e = some f' → PF s.data.sd t f'

theorem mapApi_ok {PF : Nat → SFrame α φ → Prop} {PT : STask α → Prop} (h1 : ∀ t g, PF t (.app g)) (h2 : ∀ a, PT (.app a)) (a : Api α φ) :
    ApiOK PF PT (mapApi a) := by
  cases a <;> simp only [mapApi, ApiOK] <;> first | trivial | exact h2 _ | skip
  · intro f hf u
    simp only [Option.mem_def, Option.map_eq_some_iff] at hf
    obtain ⟨g, -, rfl⟩ := hf
    exact h1 _ _
  · exact fun u => h1 _ _

theorem liftAct_ok {PF : Nat → SFrame α φ → Prop} {PT : STask α → Prop} (h1 : ∀ t g, PF t (.app g)) (h2 : ∀ a, PT (.app a))
    (h3 : ∀ t (a : SApi α), PF t a.entry) {t : Nat} (a : SAct α φ) : ActOK PF PT t (liftAct a) := by
  cases a <;> simp only [liftAct, ActOK] <;> first | trivial | exact h1 _ _ | exact ⟨h1 _ _, h1 _ _⟩ | exact ⟨h3 _ _, h1 _ _⟩ | exact ⟨h1 _ _, mapApi_ok h1 h2 _⟩

theorem laNext_call {K : LK α} {c : Kont α} {b : Bool} {a : Api (STask α) (SFrame α φ)} {k : SFrame α φ} (h : laNext K c b = .call a k) :
    False := by
  cases K <;> cases b <;> simp [laNext] at h

theorem codes' {A : App α φ δ χ} {ad : δ} {f : φ} {s : SSt α φ δ} (h : SR A ad f s) : Codes appFam s := by
  refine Codes.reach ?_ h
  intro v d f rv ch d' a k hs
  have key : ∀ x, (client A).step v d f rv ch = some (d', x) → x = .call a k → ApiOK (fun _ g => appFam g) (fun _ => True) a := by
    intro x hs hx
    cases client_cs hs with
    | app g ad sa hA =>
      cases sa <;> simp [liftAct] at hx
      obtain ⟨rfl, -⟩ := hx
      exact mapApi_ok (fun _ _ => trivial) (fun _ => trivial) _
    | sync f sd x hS =>
      cases hS
      case laRet K c => exact (laNext_call hx).elim
      case laEnd K c => exact (laNext_call hx).elim
      all_goals first | (cases hx; done) | (cases hx; trivial)
  exact key _ hs rfl

/-- The stacking discipline over reachable states. -/
abbrev stk (A : App α φ δ χ) (ad : δ) (f : φ) := stacking A (SR A ad f) fun _ h => codes' h

theorem stk_ok {A : App α φ δ χ} {ad : δ} {f : φ} {s : SSt α φ δ} (h : SR A ad f s) : (stk A ad f).Ok s :=
  (stk A ad f).sound (fun _ h => h) h

def STy.ty {A : App α φ δ χ} {ad : δ} {f : φ} (T : STy A (SR A ad f)) : Typing (client A) (SR A ad f) where
  I d := T.I d.sd
  PF d := T.PF d.sd
  PT d := T.PT d.sd
  step := by
    intro s t ch f rest d' a hj he hst hi hp hs
    cases client_cs hs with
    | app g ad sa hA => exact ⟨hi, fun _ _ h => h, fun _ h => h, liftAct_ok (fun _ _ => T.app) (fun _ => T.tapp) (fun _ _ => T.entry) _⟩
    | sync f sd a hS => exact T.step hj he hst hi hp hS
  task := by
    intro d k hk t
    cases k with
    | noop => exact ⟨T.done, T.done⟩
    | app a => exact ⟨T.app, T.app⟩
    | fut p a => exact T.task hk t
  throw := by
    intro s t f rest e f' hj hst he hp hf
    exact T.throw hj hst he hp ((stk_ok hj).exc t _ _ (by simp [he]) hst) hf

theorem STy.sound {A : App α φ δ χ} {ad : δ} {f : φ} (T : STy A (SR A ad f)) (hI : T.I {}) {s : SSt α φ δ} (h : SR A ad f s) :
    T.ty.Ok s := T.ty.sound (fun _ h => h) hI T.app h

/-- Frames where tasks and code of the application start. -/
def trivF : SFrame α φ → Prop
  | .app _ => True
  | .done _ => True
  | .ftRun _ _ => True
  | .ftDtor _ _ => True
  | _ => False

theorem codes {A : App α φ δ χ} {ad : δ} {f : φ} {s : SSt α φ δ} (h : SR A ad f s) : Codes trivF s := by
  refine Codes.reach ?_ h
  intro v d f rv ch d' a k hs
  have key : ∀ x, (client A).step v d f rv ch = some (d', x) → x = .call a k → ApiOK (fun _ g => trivF g) (fun _ => True) a := by
    intro x hs hx
    cases client_cs hs with
    | app g ad sa hA =>
      cases sa <;> simp [liftAct] at hx
      obtain ⟨rfl, -⟩ := hx
      exact mapApi_ok (fun _ _ => trivial) (fun _ => trivial) _
    | sync f sd x hS =>
      cases hS
      case laRet K c => exact (laNext_call hx).elim
      case laEnd K c => exact (laNext_call hx).elim
      all_goals first | (cases hx; done) | (cases hx; trivial)
  exact key _ hs rfl

/-- `TopInv` for facts that do not concern application code. -/
structure STop (A : App α φ δ χ) (ad : δ) (f0 : φ) where
  I : SData α → Prop
  P : SData α → Nat → SFrame α φ → Val → Prop
  triv : ∀ {d t f v}, trivF f → P d t f v
  entry : ∀ {d t v} {a : SApi α}, P d t a.entry v
  ftSet : ∀ {d t v p}, P d t (.ftSet p) v
  pdIn : ∀ {d t v p}, P d t (.pdIn p) v
  step : ∀ {s : SSt α φ δ} {t : Nat} {f : SFrame α φ} {rest : List (Fr α φ)} {d' : SData α}
    {a : Act (STask α) (SFrame α φ)}, SR A ad f0 s → I s.data.sd → (s.thr t).exc = none → s.stk t = .client f :: rest →
    P s.data.sd t f (s.thr t).rv → SS A.run A.destroy (s.view t) s.data.sd (s.thr t).rv f d' a → I d' ∧
    (∀ u g r v, u ≠ t → s.stk u = .client g :: r → P s.data.sd u g v → P d' u g v) ∧
    TopAct (stk A ad f0) (fun d => P d.sd) { s.data with sd := d' } t f rest (s.thr t).rv a
  core : ∀ {s : SSt α φ δ} {t : Nat} {f : CF (STask α) (SFrame α φ)} {l : SFrame α φ} {rest : List (Fr α φ)} {v : Val}, SR A ad f0 s →
    I s.data.sd → s.stk t = .core f :: .client l :: rest → Adj (.client l) (.core f) → f.popV v → P s.data.sd t l v
  handler : ∀ {s : SSt α φ δ} {t : Nat} {f : SFrame α φ} {rest : List (Fr α φ)} {e : Exn} {f' : SFrame α φ}, SR A ad f0 s → I s.data.sd →
    s.stk t = .client f :: rest → (s.thr t).exc = some e → sThrow A.onThrow f e = some f' → P s.data.sd t f' (.exn e)

theorem adj_app {l : SFrame α φ} {g : φ} (h : Adj (α := α) (.client l) (.client (.app g))) :
    (∃ x, l = .app x) ∨ (∃ p, l = .ftSet p) ∨ ∃ p, l = .pdIn p := by
  cases l <;> first
    | exact .inl ⟨_, rfl⟩
    | exact .inr (.inl ⟨_, rfl⟩)
    | exact .inr (.inr ⟨_, rfl⟩)
    | exact False.elim h
    | (rcases h with h | h <;> exact h.elim)
    | (obtain ⟨p, hp⟩ := h; exact hp.elim)

def STop.top {A : App α φ δ χ} {ad : δ} {f0 : φ} (T : STop A ad f0) : TopInv (client A) (SR A ad f0) (stk A ad f0) where
  I d := T.I d.sd
  P d := T.P d.sd
  triv := trivF
  triv_ok h := T.triv h
  run k := by cases k <;> trivial
  destroy k := by cases k <;> trivial
  code h := codes h
  step := by
    intro s t ch f rest d' a hj hi he hst hp hs
    cases client_cs hs with
    | app g ad sa hA =>
      refine ⟨hi, fun _ _ _ _ _ _ h => h, ?_⟩
      cases sa <;> simp only [liftAct, TopAct]
      · exact T.triv trivial
      · exact T.triv trivial
      · exact T.entry
      · intro l rest' _ hadj
        rcases adj_app hadj with ⟨x, rfl⟩ | ⟨p, rfl⟩ | ⟨p, rfl⟩
        · exact T.triv trivial
        · exact T.ftSet
        · exact T.pdIn
      · exact hp
    | sync f sd a hS => exact T.step hj hi he hst hp hS
  core hj hi hst hadj hv := T.core hj hi hst hadj hv
  handler hj hi hst he hf := T.handler hj hi hst he hf

theorem STop.sound {A : App α φ δ χ} {ad : δ} {f0 : φ} (T : STop A ad f0) (hI : T.I {}) {s : SSt α φ δ} (h : SR A ad f0 s) :
    T.I s.data.sd ∧ ∀ t f rest, s.stk t = .client f :: rest → (s.thr t).exc = none → T.P s.data.sd t f (s.thr t).rv :=
  T.top.sound (fun _ h => h) hI trivial h

/-! ## What every step of the layer preserves -/

structure Ext (d d' : SData α) : Prop where
  nst : d.nst ≤ d'.nst
  ready : ∀ {p}, p < d.nst → d.ready p = true → d'.ready p = true
  owner : ∀ {p}, p < d.nst → (d'.st p).owner = (d.st p).owner
  req : ∀ {p}, p < d.nst → (d'.st p).req = (d.st p).req
  isVoid : ∀ {p}, p < d.nst → (d'.st p).isVoid = (d.st p).isVoid
  home : ∀ {p}, p < d.nst → (d'.st p).home = (d.st p).home
  retr : ∀ {p}, p < d.nst → (d.st p).retrieved = true → (d'.st p).retrieved = true
  ntok : d.ntok ≤ d'.ntok
  tok : ∀ {k}, k < d.ntok → d.tok k = true → d'.tok k = true
  log : ∃ es, d'.slog = es ++ d.slog

theorem Ext.refl (d : SData α) : Ext d d := ⟨Nat.le_refl _, fun _ h => h, fun _ => rfl, fun _ => rfl, fun _ => rfl, fun _ => rfl, fun _ h => h, Nat.le_refl _, fun _ h => h, [], rfl⟩

theorem ext_st {d d' : SData α} {p : Nat} {x : FSt α} (h1 : d'.nst = d.nst) (h2 : d'.st = set d.st p x) (h3 : d.ready p = true → x.status ≠ .notSet)
    (h4 : x.owner = (d.st p).owner) (h4' : x.req = (d.st p).req) (h5 : x.isVoid = (d.st p).isVoid) (h5' : x.home = (d.st p).home) (h6 : (d.st p).retrieved = true → x.retrieved = true)
    (h7 : d'.ntok = d.ntok) (h8 : d'.tok = d.tok) (h9 : ∃ es, d'.slog = es ++ d.slog) : Ext d d' := by
  refine ⟨by omega, ?_, ?_, ?_, ?_, ?_, ?_, by omega, by simp [h8], h9⟩
  all_goals intro q hq
  · simp only [SData.ready, h2, set]; split
    · rename_i h; subst h; intro h; simpa using h3 h
    · exact id
  · simp only [h2, set]; split
    · rename_i h; subst h; exact h4
    · rfl
  · simp only [h2, set]; split
    · rename_i h; subst h; exact h4'
    · rfl
  · simp only [h2, set]; split
    · rename_i h; subst h; exact h5
    · rfl
  · simp only [h2, set]; split
    · rename_i h; subst h; exact h5'
    · rfl
  · simp only [h2, set]; split
    · rename_i h; subst h; exact h6
    · exact id

theorem ext_same {d d' : SData α} (h1 : d'.nst = d.nst) (h2 : d'.st = d.st) (h7 : d'.ntok = d.ntok)
    (h8 : ∀ k, d.tok k = true → d'.tok k = true) (h9 : ∃ es, d'.slog = es ++ d.slog) : Ext d d' :=
  ⟨by omega, by simp [SData.ready, h2], by simp [h2], by simp [h2], by simp [h2], by simp [h2], by simp [h2], by omega, fun _ h => h8 _ h, h9⟩

theorem ext_mk {d d' : SData α} {t : Nat} {x : FSt α} (h1 : d'.nst = d.nst + 1) (h2 : d'.st = set d.st d.nst x) (h7 : d'.ntok = d.ntok)
    (h8 : d'.tok = d.tok) (h9 : d'.slog = .made t d.nst :: d.slog) : Ext d d' := by
  refine ⟨by omega, ?_, ?_, ?_, ?_, ?_, ?_, by omega, by simp [h8], ⟨[.made t d.nst], h9⟩⟩
  all_goals intro q hq
  · simp only [SData.ready, h2, set_ne _ _ (Nat.ne_of_lt hq)]; exact id
  · simp only [h2, set_ne _ _ (Nat.ne_of_lt hq)]
  · simp only [h2, set_ne _ _ (Nat.ne_of_lt hq)]
  · simp only [h2, set_ne _ _ (Nat.ne_of_lt hq)]
  · simp only [h2, set_ne _ _ (Nat.ne_of_lt hq)]
  · simp only [h2, set_ne _ _ (Nat.ne_of_lt hq)]; exact id

theorem ext_add {d : SData α} {t : Nat} {s : SemId} {i : Nat} : Ext d (d.addWaiter t s i).1 := by
  unfold SData.addWaiter
  split
  · exact Ext.refl d
  · refine ⟨Nat.le_refl _, fun _ h => h, fun _ => rfl, fun _ => rfl, fun _ => rfl, fun _ => rfl, fun _ h => h, Nat.le_succ _, ?_, [_], rfl⟩
    intro k hk h
    simp [set_ne _ _ (Nat.ne_of_lt hk), h]

theorem ext_rel {d : SData α} {L : Option Lk} : Ext d (d.relLk L) := by
  cases L with
  | none => exact Ext.refl d
  | some l => exact ext_same rfl rfl rfl (fun _ h => h) ⟨[], rfl⟩

theorem SS.ext {run destroy : α → φ} {v : View} {d d' : SData α} {rv : Val} {f : SFrame α φ} {a : Act (STask α) (SFrame α φ)}
    (h : SS run destroy v d rv f d' a) : Ext d d' := by
  cases h
  case nSig K i k l h =>
    refine ext_same rfl rfl rfl ?_ ⟨[_], rfl⟩
    intro k' hk'; simp only [set]; split <;> simp [hk']
  all_goals first
    | exact Ext.refl _
    | exact ext_add
    | exact ext_rel
    | exact ext_same rfl rfl rfl (fun _ h => h) ⟨[], rfl⟩
    | exact ext_same rfl rfl rfl (fun _ h => h) ⟨[_], rfl⟩
    | exact ext_mk rfl rfl rfl rfl rfl
    | exact ext_st rfl rfl (by simp [SData.ready]) rfl rfl rfl rfl (by simp) rfl rfl ⟨[], rfl⟩
    | exact ext_st rfl rfl (by simp [SData.ready]) rfl rfl rfl rfl (by simp) rfl rfl ⟨[_], rfl⟩

theorem Ext.mem {d d' : SData α} (h : Ext d d') {e : SEv} (he : e ∈ d.slog) : e ∈ d'.slog := by
  obtain ⟨es, h⟩ := h.log; rw [h]; simp [he]

theorem Ext.trans {d d' d'' : SData α} (h : Ext d d') (h' : Ext d' d'') : Ext d d'' where
  nst := Nat.le_trans h.nst h'.nst
  ready hp hr := h'.ready (Nat.lt_of_lt_of_le hp h.nst) (h.ready hp hr)
  owner hp := (h'.owner (Nat.lt_of_lt_of_le hp h.nst)).trans (h.owner hp)
  req hp := (h'.req (Nat.lt_of_lt_of_le hp h.nst)).trans (h.req hp)
  isVoid hp := (h'.isVoid (Nat.lt_of_lt_of_le hp h.nst)).trans (h.isVoid hp)
  home hp := (h'.home (Nat.lt_of_lt_of_le hp h.nst)).trans (h.home hp)
  retr hp hr := h'.retr (Nat.lt_of_lt_of_le hp h.nst) (h.retr hp hr)
  ntok := Nat.le_trans h.ntok h'.ntok
  tok hk ht := h'.tok (Nat.lt_of_lt_of_le hk h.ntok) (h.tok hk ht)
  log := by
    obtain ⟨es, h⟩ := h.log; obtain ⟨es', h'⟩ := h'.log
    exact ⟨es' ++ es, by rw [h', h]; simp⟩

theorem step_ext {A : App α φ δ χ} {s s' : SSt α φ δ} {l : Lbl χ} (hs : Core.step (client A) s l = some s') :
    Ext s.data.sd s'.data.sd := by
  cases l with
  | tick n => rw [step_tick _ s s' n hs]; exact Ext.refl _
  | th t ch =>
    rcases step_cl hs with ⟨f, rest, d', a, hexc, hold, hstep, hdata, hact, -⟩ | ⟨f, rest, hexc, hold, hcs, hdata, -⟩ | ⟨e, hexc, hst, -, -, hdata, -⟩ |
      ⟨e, f, k, rest, hexc, hold, hf, hst, hexc', hdata, -⟩ | ⟨e, f, rest, hexc, hold, hf, hst, -, hdata, -⟩ |
      ⟨e, g, g', rest, hexc, hold, hg, hst, hexc', hdata, -⟩ | ⟨e, g, rest, hexc, hold, hg, hst, -, hdata, -⟩ | ⟨hold, hst, hexc', hdata, -⟩
    · rw [hdata]
      cases client_cs hstep with
      | app g ad sa hA => exact Ext.refl _
      | sync f sd a hS => exact hS.ext
    all_goals rw [hdata]; exact Ext.refl _

end
end Sync
end Itc
