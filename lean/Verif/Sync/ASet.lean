import Verif.Sync.Out
import Verif.Sync.ARet

/-!
# Calls of set_value by the application (proof infrastructure, no claims)

`AN`: storages in which at most one promise is constructed. `AS`: application frames that wait for promise::set_value, and the state
that is ready when control is back.
-/
namespace Itc
namespace Sync
open Core
section
variable {α φ δ χ : Type} {A : App α φ δ χ} {ad0 : δ} {f0 : φ}

/-- State `p` was made by the constructor of a promise in storage `q`. -/
def madeAt (d : SData α) (q p : Nat) : Prop := p < d.nst ∧ (d.st p).home = q ∧ (d.st p).owner = .usr

theorem madeAt.mono {d d' : SData α} {q p : Nat} (h : madeAt d q p) (he : Ext d d') : madeAt d' q p :=
  ⟨lt_mono he h.1, (he.home h.1).trans h.2.1, (he.owner h.1).trans h.2.2⟩

theorem madeAt.back {d d' : SData α} {q p : Nat} (h : madeAt d' q p) (he : Ext d d') (hp : p < d.nst) : madeAt d q p :=
  ⟨hp, (he.home hp).symm.trans h.2.1, (he.owner hp).symm.trans h.2.2⟩

/-- New states. -/
theorem SS.mk {run destroy : α → φ} {v : View} {d d' : SData α} {rv : Val} {f : SFrame α φ} {a : Act (STask α) (SFrame α φ)}
    (h : SS run destroy v d rv f d' a) {q p : Nat} (hp : madeAt d' q p) : madeAt d q p ∨ ∃ b, f = .poNew q b ∧ p = d.nst := by
  by_cases hlt : p < d.nst
  · exact .inl (hp.back h.ext hlt)
  · right
    have h1 := hp.1
    obtain ⟨-, h2, h3⟩ := hp
    cases h
    case poNew q' b h0 =>
      have : p = d.nst := by have h1 : p < d.nst + 1 := h1; omega
      subst this
      simp [SData.mkState] at h2
      subst h2; exact ⟨b, rfl, rfl⟩
    case thS =>
      have : p = d.nst := by have h1 : p < d.nst + 1 := h1; omega
      subst this
      simp [SData.mkState] at h3
    case asIn =>
      have : p = d.nst := by have h1 : p < d.nst + 1 := h1; omega
      subst this
      simp [SData.mkState] at h3
    case pkIn =>
      have : p = d.nst := by have h1 : p < d.nst + 1 := h1; omega
      subst this
      simp [SData.mkState] at h3
    case swIn => unfold SData.addWaiter at h1; split at h1 <;> exact absurd h1 hlt
    case wfAdd => unfold SData.addWaiter at h1; split at h1 <;> exact absurd h1 hlt
    case swBefore w i k => cases hw : w.lk <;> rw [hw] at h1 <;> exact absurd h1 hlt
    case wfBefore w i k _ _ => cases hw : w.lk <;> rw [hw] at h1 <;> exact absurd h1 hlt
    all_goals exact absurd h1 hlt

/-- Steps of this layer do not call the constructor of a promise. -/
theorem SS.to_new {run destroy : α → φ} {v : View} {d d' : SData α} {rv : Val} {f : SFrame α φ} {a : Act (STask α) (SFrame α φ)}
    (h : SS run destroy v d rv f d' a) (q : Nat) (b : Bool) : a ≠ .goto (.poNew q b) ∧ (∀ k, a ≠ .push (.poNew q b) k) ∧ a.cont ≠ some (.poNew q b) := by
  cases h
  case laRet K c => cases K <;> simp only [laNext] <;> (try split) <;> exact ⟨by simp, by simp, by simp [Act.cont]⟩
  case laEnd K c => cases K <;> simp only [laNext] <;> (try split) <;> exact ⟨by simp, by simp, by simp [Act.cont]⟩
  all_goals exact ⟨by simp, by simp, by simp [Act.cont]⟩

theorem new_top {s : SSt α φ δ} (hr : SR A ad0 f0 s) {t q : Nat} {b : Bool} {x : Fr α φ} {rest : List (Fr α φ)} (hst : s.stk t = x :: rest) :
    .client (.poNew q b) ∉ rest := by
  intro h
  obtain ⟨l1, l2, h12⟩ := List.append_of_mem h
  have hch := (stk_ok hr).chain t
  rw [hst, h12] at hch
  rcases List.eq_nil_or_concat (x :: l1) with h0 | ⟨l, y, hl⟩
  · cases h0
  · rw [show x :: (l1 ++ Frame.client (SFrame.poNew q b) :: l2) = (x :: l1) ++ Frame.client (SFrame.poNew q b) :: l2 from rfl, hl] at hch
    simp only [List.concat_eq_append, List.append_assoc, List.singleton_append] at hch
    have := chain_mid hch
    exact this

/-- Where a call of the constructor comes from. -/
theorem new_mem {s s' : SSt α φ δ} {t u : Nat} {ch : Ch χ} (hr : SR A ad0 f0 s) (hs : Core.step (client A) s (.th t ch) = some s') {q : Nat} {b : Bool}
    (hg : .client (.poNew q b) ∈ s'.stk u) : .client (.poNew q b) ∈ s.stk u ∨
    (u = t ∧ ∃ g rest ch k, (s.thr t).exc = none ∧ s.stk t = .client (.app g) :: rest ∧
      A.step (s.view t) s.data.ad g (s.thr t).rv ch = some (s'.data.ad, .sync (.promNew q b) k) ∧ s'.data.sd = s.data.sd) := by
  by_cases hu : u = t
  · subst hu
    cases mv hr hs with
    | sync f rest a he hst hS hact had =>
      have hrest : .client (.poNew q b) ∈ rest → .client (.poNew q b) ∈ s.stk u := fun h => by rw [hst]; simp [h]
      obtain ⟨n1, n2, n3⟩ := hS.to_new q b
      left
      cases a with
      | goto f' =>
        rw [hact.1] at hg
        rcases List.mem_cons.1 hg with h | h
        · cases h; exact absurd rfl n1
        · exact hrest h
      | push f' k =>
        rw [hact.1] at hg
        rcases List.mem_cons.1 hg with h | h
        · cases h; exact absurd rfl (n2 _)
        rcases List.mem_cons.1 h with h | h
        · cases h; exact absurd rfl n3
        · exact hrest h
      | call b k =>
        rw [hact.1] at hg
        rcases List.mem_cons.1 hg with h | h
        · cases h
        rcases List.mem_cons.1 h with h | h
        · cases h; exact absurd rfl n3
        · exact hrest h
      | ret v => rw [hact.1] at hg; exact hrest hg
      | throw v => rw [hact.1] at hg; exact hrest hg
      | terminate => rw [hact.1] at hg; exact hg
    | app x rest a he hst hd hact hA =>
      have hrest : .client (.poNew q b) ∈ rest → .client (.poNew q b) ∈ s.stk u := fun h => by rw [hst]; simp [h]
      obtain ⟨ch', hA⟩ := hA
      cases a <;> simp only [liftAct, ActTo] at hact <;> rw [hact.1] at hg
      · rcases List.mem_cons.1 hg with h | h
        · cases h
        · exact .inl (hrest h)
      · rcases List.mem_cons.1 hg with h | h
        · cases h
        rcases List.mem_cons.1 h with h | h
        · cases h
        · exact .inl (hrest h)
      · rcases List.mem_cons.1 hg with h | h
        · cases h
        rcases List.mem_cons.1 h with h | h
        · cases h
        · exact .inl (hrest h)
      · rename_i a k
        rcases List.mem_cons.1 hg with h | h
        · right
          cases a <;> first | (cases h; done) | skip
          cases h
          exact ⟨rfl, x, rest, ch', k, he, hst, hA, hd⟩
        rcases List.mem_cons.1 h with h | h
        · cases h
        · exact .inl (hrest h)
      · exact .inl (hrest hg)
      · exact .inl (hrest hg)
      · exact .inl hg
    | hand e f f' rest he hst hn hf hst' he' hd =>
      rw [hst'] at hg
      rcases List.mem_cons.1 hg with h | h
      · cases h
        exfalso
        cases f <;> simp only [sThrow, Option.some.injEq, Option.map_eq_some_iff, reduceCtorEq] at hf
        obtain ⟨x, -, h⟩ := hf; cases h
      · exact .inl (by rw [hst]; simp [h])
    | drop e f rest he hst hn hf hst' he' hd => rw [hst'] at hg; exact .inl (by rw [hst]; simp [hg])
    | core f rest pre hst hpre hst' hd =>
      rw [hst'] at hg
      rcases List.mem_append.1 hg with h | h
      · exact (hpre _ h).elim
      · exact .inl (by rw [hst]; simp [h])
    | still hst' he' hd => rw [hst'] at hg; exact .inl hg
  · rcases mv_oth hr hs hu with ⟨h, -⟩ | ⟨-, g', h, hg'⟩
    · rw [h] at hg; exact .inl hg
    · rw [h] at hg; simp at hg; subst hg; exact hg'.elim

structure AN (A : App α φ δ χ) (ad0 : δ) (f0 : φ) where
  P : Nat → Prop
  N : δ → Nat → Prop
  mono : ∀ {s : SSt α φ δ} {t : Nat} {ch : Ch χ} {g : φ} {rest : List (Fr α φ)} {ad' : δ} {sa : SAct α φ} {q : Nat}, SR A ad0 f0 s →
    s.stk t = .client (.app g) :: rest → A.step (s.view t) s.data.ad g (s.thr t).rv ch = some (ad', sa) → P q → N s.data.ad q → N ad' q
  new : ∀ {s : SSt α φ δ} {t : Nat} {ch : Ch χ} {g : φ} {rest : List (Fr α φ)} {ad' : δ} {q : Nat} {b : Bool} {k : φ}, SR A ad0 f0 s →
    s.stk t = .client (.app g) :: rest → A.step (s.view t) s.data.ad g (s.thr t).rv ch = some (ad', .sync (.promNew q b) k) → P q →
    ¬ N s.data.ad q ∧ N ad' q

structure AN.Ok (B : AN A ad0 f0) (s : SSt α φ δ) (q : Nat) : Prop where
  used : ∀ p, madeAt s.data.sd q p → B.N s.data.ad q
  fr : ∀ t b, .client (.poNew q b) ∈ s.stk t → B.N s.data.ad q ∧ ∀ p, ¬ madeAt s.data.sd q p
  one : ∀ t u b b', .client (.poNew q b) ∈ s.stk t → .client (.poNew q b') ∈ s.stk u → t = u
  uniq : ∀ p p', madeAt s.data.sd q p → madeAt s.data.sd q p' → p = p'

theorem AN.ok (B : AN A ad0 f0) {s : SSt α φ δ} (h : SR A ad0 f0 s) {q0 : Nat} (hq : B.P q0) : B.Ok s q0 := by
  refine Reach.induct (fun s => B.Ok s q0) ?_ ?_ h
  · have hno : ∀ t b, .client (.poNew q0 b) ∉ (Core.init { ad := ad0 } (.app f0) : SSt α φ δ).stk t := by
      intro t b ht
      by_cases h0 : t = 0
      · subst h0; simp [Core.init, St.stk] at ht
      · simp [Core.init, St.stk, upd_ne _ _ h0] at ht
    refine ⟨?_, fun t b h => absurd h (hno t b), fun t u b b' h => absurd h (hno t b), ?_⟩
    · intro p hp; exact absurd hp.1 (Nat.not_lt_zero _)
    · intro p p' hp; exact absurd hp.1 (Nat.not_lt_zero _)
  · intro s l s' hr q hs
    cases l with
    | tick n => rw [step_tick _ s s' n hs]; exact ⟨q.used, q.fr, q.one, q.uniq⟩
    | th t ch =>
      have hr' : SR A ad0 f0 s' := hr.step hs
      have hN : B.N s.data.ad q0 → B.N s'.data.ad q0 := by
        intro hn
        cases mv hr hs with
        | app x rest a he hst hd hact hA => obtain ⟨ch', hA⟩ := hA; exact B.mono hr hst hA hq hn
        | sync f rest a he hst hS hact had => rw [had]; exact hn
        | hand e f f' rest he hst hn' hf hst' he' hd had => rw [had]; exact hn
        | drop e f rest he hst hn' hf hst' he' hd had => rw [had]; exact hn
        | core f rest pre hst hpre hst' hd had => rw [had]; exact hn
        | still hst' he' hd had => rw [had]; exact hn
      have hmade : ∀ p, madeAt s'.data.sd q0 p → madeAt s.data.sd q0 p ∨ p = s.data.sd.nst ∧ ∃ b rest, s.stk t = .client (.poNew q0 b) :: rest ∧ s'.stk t = rest := by
        intro p hp
        cases mv hr hs with
        | app x rest a he hst hd hact hA => rw [hd] at hp; exact .inl hp
        | sync f rest a he hst hS hact had =>
          rcases hS.mk hp with h | ⟨b, rfl, h⟩
          · exact .inl h
          · refine .inr ⟨h, b, rest, hst, ?_⟩
            generalize hd : s'.data.sd = d' at *
            cases hS
            · exact hact.1
            · exact absurd (h ▸ hp.1) (Nat.lt_irrefl _)
        | hand e f f' rest he hst hn' hf hst' he' hd had => rw [hd] at hp; exact .inl hp
        | drop e f rest he hst hn' hf hst' he' hd had => rw [hd] at hp; exact .inl hp
        | core f rest pre hst hpre hst' hd had => rw [hd] at hp; exact .inl hp
        | still hst' he' hd had => rw [hd] at hp; exact .inl hp
      have hgone : ∀ b rest, s.stk t = .client (.poNew q0 b) :: rest → s'.stk t = rest → ∀ u b', .client (.poNew q0 b') ∉ s'.stk u := by
        intro b rest h1 h2 u b' hm
        rcases new_mem hr hs hm with h | ⟨-, g, r, ch', k, -, h4, -⟩
        · have := q.one t u b b' (by rw [h1]; simp) h
          subst this
          rw [h2] at hm; exact new_top hr h1 hm
        · rw [h1] at h4; cases h4
      refine ⟨?_, ?_, ?_, ?_⟩
      · intro p hp
        rcases hmade p hp with h | ⟨-, b, rest, h1, -⟩
        · exact hN (q.used p h)
        · exact hN (q.fr t b (by rw [h1]; simp)).1
      · intro u b hm
        rcases new_mem hr hs hm with h | ⟨-, g, rest, ch', k, he, hst, hA, hd⟩
        · refine ⟨hN (q.fr u b h).1, fun p hp => ?_⟩
          rcases hmade p hp with h' | ⟨-, b', rest, h1, h2⟩
          · exact (q.fr u b h).2 p h'
          · exact hgone b' rest h1 h2 u b hm
        · obtain ⟨h1, h2⟩ := B.new hr hst hA hq
          exact ⟨h2, fun p hp => h1 (q.used p (hd ▸ hp))⟩
      · intro u u' b b' hm hm'
        rcases new_mem hr hs hm with h | ⟨h1, g, rest, ch', k, he, hst, hA, hd⟩ <;> rcases new_mem hr hs hm' with h' | ⟨h1', g', rest', ch'', k', he', hst', hA', hd'⟩
        · exact q.one u u' b b' h h'
        · exact absurd (q.fr u b h).1 (B.new hr hst' hA' hq).1
        · exact absurd (q.fr u' b' h').1 (B.new hr hst hA hq).1
        · rw [h1, h1']
      · intro p p' hp hp'
        rcases hmade p hp with h | ⟨e, b, rest, h1, h2⟩ <;> rcases hmade p' hp' with h' | ⟨e', b', rest', h1', h2'⟩
        · exact q.uniq p p' h h'
        · exact absurd h ((q.fr t b' (by rw [h1']; simp)).2 p)
        · exact absurd h' ((q.fr t b (by rw [h1]; simp)).2 p')
        · rw [e, e']

/-! ## The state that promise::set_value has made ready -/

theorem SS.setFam {run destroy : α → φ} {v : View} {d d' : SData α} {rv : Val} {f g : SFrame α φ} {a : Act (STask α) (SFrame α φ)}
    (h : SS run destroy v d rv f d' a) (hg : a.cont = some g) {p : Nat} (hf : setFam p f) : setFam p g := by
  cases h <;> first | exact False.elim hf | (cases hg; done) | (cases hg; exact hf) | skip
  case laRet K c => cases K <;> first | exact False.elim hf | (simp only [laNext] at hg; cases hg; exact hf)
  case laEnd K c => cases K <;> first | exact False.elim hf | (simp only [laNext] at hg; cases hg; exact hf)

theorem SS.cont_app {run destroy : α → φ} {v : View} {d d' : SData α} {rv : Val} {f : SFrame α φ} {a : Act (STask α) (SFrame α φ)}
    (h : SS run destroy v d rv f d' a) (g : φ) : a.cont ≠ some (.app g) := by
  cases h
  case laRet K c => cases K <;> simp only [laNext] <;> (try split) <;> simp [Act.cont]
  case laEnd K c => cases K <;> simp only [laNext] <;> (try split) <;> simp [Act.cont]
  all_goals simp [Act.cont]

/-- The value that the set_value of this frame is given, or has set. -/
def valOf (d : SData α) (p : Nat) : SFrame α φ → Prop
  | .svIn _ r => ∃ w, r = .val w
  | .svChk _ r => ∃ w, r = .val w
  | .srSet _ r => ∃ w, r = .val w
  | _ => ∃ t w, .sat t p (.val w) ∈ d.slog

theorem sat_mono {d d' : SData α} (h : Ext d d') {p : Nat} (hs : ∃ t w, SEv.sat t p (.val w) ∈ d.slog) : ∃ t w, SEv.sat t p (.val w) ∈ d'.slog := by
  obtain ⟨t, w, hs⟩ := hs
  obtain ⟨es, he⟩ := h.log
  exact ⟨t, w, by rw [he]; simp [hs]⟩

theorem valOf_mono {d d' : SData α} (h : Ext d d') {p : Nat} {g : SFrame α φ} (hg : valOf d p g) : valOf d' p g := by
  cases g <;> first | exact hg | exact sat_mono h hg

theorem SS.valStep {run destroy : α → φ} {v : View} {d d' : SData α} {rv : Val} {f g : SFrame α φ} {a : Act (STask α) (SFrame α φ)}
    (h : SS run destroy v d rv f d' a) (hg : a.cont = some g) {p : Nat} (hf : Sync.setFam p f) (hv : valOf d p f) : valOf d' p g := by
  have hx := h.ext
  cases h <;> first | exact False.elim hf | (cases hg; done) | (cases hg; exact sat_mono hx hv) | (cases hg; exact hv) | skip
  case srVal q w => cases hg; obtain rfl : q = p := hf; exact ⟨_, _, List.mem_cons_self⟩
  case srExn q e => obtain ⟨w, hv⟩ := hv; cases hv
  case laRet K c => cases K <;> first | exact False.elim hf | (simp only [laNext] at hg; cases hg; exact sat_mono hx hv)
  case laEnd K c => cases K <;> first | exact False.elim hf | (simp only [laNext] at hg; cases hg; exact sat_mono hx hv)

/-- State `p` is ready and was given a value. -/
def was (d : SData α) (p : Nat) : Prop := rdy d p ∧ ∃ t w, .sat t p (.val w) ∈ d.slog

theorem was_mono {d d' : SData α} (h : Ext d d') {p : Nat} (hs : was d p) : was d' p := ⟨rdy_mono h hs.1, sat_mono h hs.2⟩

structure AS (A : App α φ δ χ) (ad0 : δ) (f0 : φ) where
  E : φ → Option Nat
  e0 : E f0 = none
  run : ∀ a, E (A.run a) = none ∧ E (A.destroy a) = none
  throw : ∀ {f e f'}, A.onThrow f e = some f' → E f' = none
  code : ∀ {v ad f rv ch ad' a k}, A.step v ad f rv ch = some (ad', .core a k) → ApiOK (fun _ g => E g = none) (fun _ => True) a
  goto : ∀ {v ad f rv ch ad' g}, A.step v ad f rv ch = some (ad', .goto g) → E g = none
  push : ∀ {v ad f rv ch ad' g k}, A.step v ad f rv ch = some (ad', .push g k) → E g = none ∧ E k = none
  core : ∀ {v ad f rv ch ad' a k}, A.step v ad f rv ch = some (ad', .core a k) → E k = none
  sync : ∀ {v ad f rv ch ad' a k q}, A.step v ad f rv ch = some (ad', .sync a k) → E k = some q → ∃ w, a = .promSet q (.val w)
  obj : ∀ {s : SSt α φ δ} {k q p}, SR A ad0 f0 s → E k = some q → s.data.sd.obj q = some p → madeAt s.data.sd q p

namespace AS
variable (B : AS A ad0 f0)

def ef : SFrame α φ → Prop
  | .app g => B.E g = none
  | _ => True

theorem codes {s : SSt α φ δ} (h : SR A ad0 f0 s) : Codes B.ef s := by
  refine Codes.reach ?_ h
  intro v d f rv ch d' a k hs
  have key : ∀ x, (client A).step v d f rv ch = some (d', x) → x = .call a k → ApiOK (fun _ g => B.ef g) (fun _ => True) a := by
    intro x hs hx
    cases client_cs hs with
    | app g ad sa hA =>
      clear hs
      cases sa <;> simp [liftAct] at hx
      obtain ⟨rfl, -⟩ := hx
      rename_i a' k'
      have := B.code hA
      clear hA
      cases a' <;> simp only [mapApi, ApiOK] at this ⊢ <;> first | trivial | exact this | skip
      intro f hf u
      simp only [Option.mem_def, Option.map_eq_some_iff] at hf
      obtain ⟨g, hg, rfl⟩ := hf
      exact this g hg u
    | sync f sd x hS =>
      cases hS
      case laRet K c => exact (laNext_call hx).elim
      case laEnd K c => exact (laNext_call hx).elim
      all_goals first | (cases hx; done) | (cases hx; trivial)
  exact key _ hs rfl

/-- Directly above a frame that waits for set_value. -/
def adj (d : SData α) : Fr α φ → Fr α φ → Prop
  | .client (.app k), u => ∀ q, B.E k = some q → (∃ w, u = .client (.poSet q (.val w))) ∨ ∃ p g, u = .client g ∧ setFam p g ∧ madeAt d q p ∧ valOf d p g
  | _, _ => True

theorem adj_triv {d : SData α} {g : SFrame α φ} {u : Fr α φ} (h : B.ef g) : B.adj d (.client g) u := by
  cases g <;> first | trivial | skip
  intro q hq
  have h : B.E _ = none := h
  rw [h] at hq; cases hq

theorem adj_mono {d d' : SData α} (h : Ext d d') {l u : Fr α φ} (ha : B.adj d l u) : B.adj d' l u := by
  cases l with
  | core f => trivial
  | client g =>
    cases g <;> first | trivial | skip
    intro q hq
    rcases ha q hq with h1 | ⟨p, g, h1, h2, h3, h4⟩
    · exact .inl h1
    · exact .inr ⟨p, g, h1, h2, h3.mono h, valOf_mono h h4⟩

theorem chain_mono {R R' : Fr α φ → Fr α φ → Prop} (h : ∀ l u, R l u → R' l u) : ∀ l : List (Fr α φ), Core.chain R l → Core.chain R' l
  | [], _ => trivial
  | [_], _ => trivial
  | _ :: b :: l, hc => ⟨h _ _ hc.1, chain_mono h (b :: l) hc.2⟩

/-- The top frame is replaced. -/
theorem adj_cont {s s' : SSt α φ δ} (hr : SR A ad0 f0 s) {v : View} {rv : Val} {f g : SFrame α φ} {a : Act (STask α) (SFrame α φ)}
    (hS : SS A.run A.destroy v s.data.sd rv f s'.data.sd a) (hg : a.cont = some g) {l : Fr α φ} (h : B.adj s.data.sd l (.client f)) :
    B.adj s'.data.sd l (.client g) := by
  cases l with
  | core f => trivial
  | client x =>
    cases x <;> first | trivial | skip
    intro q hq
    have hx := hS.ext
    rcases h q hq with ⟨r, h1⟩ | ⟨p, g', h1, h2, h3, h4⟩
    · cases h1
      generalize hd : s'.data.sd = e at hS
      cases hS <;> first | (cases hg; done) | skip
      case poSet p hp =>
        cases hg
        exact .inr ⟨p, _, rfl, rfl, B.obj hr hq hp, r, rfl⟩
    · cases h1
      exact .inr ⟨p, _, rfl, hS.setFam hg h2, h3.mono hx, hS.valStep hg h2 h4⟩

/-- No such frame is below an application frame or a frame of the core. -/
theorem adj_any {d : SData α} {l : Fr α φ} {f : Fr α φ} (hf : (∃ g, f = .core g) ∨ ∃ g, f = .client (.app g)) (h : B.adj d l f) (u : Fr α φ) : B.adj d l u := by
  cases l with
  | core f => trivial
  | client x =>
    cases x <;> first | trivial | skip
    intro q hq
    exfalso
    rcases hf with ⟨g, rfl⟩ | ⟨g, rfl⟩ <;> rcases h q hq with ⟨r, h1⟩ | ⟨p, g', h1, h2, h3, h4⟩
    · cases h1
    · cases h1
    · cases h1
    · cases h1; exact h2

structure Ok (s : SSt α φ δ) : Prop where
  ch : ∀ t, Core.chain (B.adj s.data.sd) (s.stk t)
  top : ∀ t k rest q, s.stk t = .client (.app k) :: rest → (s.thr t).exc = none → B.E k = some q → ∃ p, was s.data.sd p ∧ madeAt s.data.sd q p

theorem ok {s : SSt α φ δ} (h : SR A ad0 f0 s) : B.Ok s := by
  refine Reach.induct (fun s => B.Ok s) ?_ ?_ h
  · refine ⟨?_, ?_⟩
    · intro t
      by_cases ht : t = 0
      · subst ht; simp [Core.init, St.stk, Core.chain]
      · simp [Core.init, St.stk, upd_ne _ _ ht, Core.chain]
    · intro t k rest q hst _ hk
      by_cases ht : t = 0
      · subst ht; simp [Core.init, St.stk] at hst; rw [← hst.1, B.e0] at hk; cases hk
      · simp [Core.init, St.stk, upd_ne _ _ ht] at hst
  · intro s l s' hr w hs
    have hext := step_ext hs
    have hmono : ∀ (t : Nat) (l : List (Fr α φ)), Core.chain (B.adj s.data.sd) l → Core.chain (B.adj s'.data.sd) l := fun _ l h => chain_mono (fun _ _ h => B.adj_mono hext h) l h
    cases l with
    | tick n => rw [step_tick _ s s' n hs]; exact ⟨w.ch, w.top⟩
    | th t ch =>
      have hT : ∀ k, B.ef ((client A).run k) := by intro k; cases k <;> first | trivial | exact (B.run _).1
      have hT' : ∀ k, B.ef ((client A).destroy k) := by intro k; cases k <;> first | trivial | exact (B.run _).2
      have hm := mvT hr (B.codes hr) hT hT' hs
      have oth : ∀ u, u ≠ t → Core.chain (B.adj s'.data.sd) (s'.stk u) ∧
          ∀ k rest q, s'.stk u = .client (.app k) :: rest → (s'.thr u).exc = none → B.E k = some q → ∃ p, was s'.data.sd p ∧ madeAt s'.data.sd q p := by
        intro u hu
        rcases mv_othT hr (B.codes hr) hs hu with ⟨h1, h2⟩ | ⟨h1, g, h2, h3⟩
        · rw [h1]
          refine ⟨hmono t _ (w.ch u), ?_⟩
          intro k rest q hst he hk
          obtain ⟨p, hp1, hp2⟩ := w.top u k rest q hst ((h2 (by rw [hst]; simp)).symm.trans he) hk
          exact ⟨p, was_mono hext hp1, hp2.mono hext⟩
        · rw [h2]
          refine ⟨trivial, ?_⟩
          intro k rest q hst he hk
          cases hst
          have h3 : B.E k = none := h3
          rw [h3] at hk; cases hk
      have fin : Core.chain (B.adj s'.data.sd) (s'.stk t) → (∀ k rest q, s'.stk t = .client (.app k) :: rest → (s'.thr t).exc = none → B.E k = some q →
          ∃ p, was s'.data.sd p ∧ madeAt s'.data.sd q p) → B.Ok s' := by
        intro h1 h2
        refine ⟨fun u => ?_, fun u => ?_⟩
        · by_cases hu : u = t
          · subst hu; exact h1
          · exact (oth u hu).1
        · by_cases hu : u = t
          · subst hu; exact h2
          · exact (oth u hu).2
      have hch := hmono t _ (w.ch t)
      cases hm with
      | sync f rest a he hst hS hact had =>
        have hchs := w.ch t
        rw [hst] at hch hchs
        have hne : ∀ g, a.cont = some g → B.ef g := by
          intro g hg
          cases g <;> first | trivial | exact absurd hg (hS.cont_app _)
        have cl : ∀ {g : SFrame α φ}, a.cont = some g → Core.chain (B.adj s'.data.sd) (.client g :: rest) := fun {g} h => by
          have hch' := hch
          cases rest with
          | nil => trivial
          | cons l rest => exact ⟨B.adj_cont hr hS h hchs.1, hch'.2⟩
        have htop : ∀ g k, (a = .goto g ∨ a = .push g k) → B.ef g := by
          intro g k h
          cases g <;> first | trivial | skip
          rename_i g
          rcases SS.to_app hS with h' | ⟨b, h'⟩ | ⟨b, h'⟩
          · rcases h with h | h
            · exact absurd h (h'.1 g)
            · exact absurd h (h'.2 g _)
          · rcases h with h | h
            · exact absurd h (h'.1 g)
            · rw [h'.2 g _ h]; exact (B.run b).1
          · rcases h with h | h
            · exact absurd h (h'.1 g)
            · rw [h'.2 g _ h]; exact (B.run b).2
        have nope : ∀ g rest', B.ef g → s'.stk t = .client g :: rest' → ∀ k r q, s'.stk t = .client (.app k) :: r → (s'.thr t).exc = none → B.E k = some q →
            ∃ p, was s'.data.sd p ∧ madeAt s'.data.sd q p := by
          intro g rest' hg h1 k r q h2 _ hk
          rw [h1] at h2; cases h2
          have hg : B.E k = none := hg
          rw [hg] at hk; cases hk
        cases a with
        | goto g => exact fin (by rw [hact.1]; exact cl rfl) (nope g _ (htop g g (.inl rfl)) hact.1)
        | push g k => exact fin (by rw [hact.1]; exact ⟨B.adj_triv (hne k rfl), cl rfl⟩) (nope g _ (htop g k (.inr rfl)) hact.1)
        | call b k =>
          refine fin (by rw [hact.1]; exact ⟨B.adj_triv (hne k rfl), cl rfl⟩) ?_
          intro k r q h; rw [hact.1] at h; cases h
        | ret v =>
          refine fin (by rw [hact.1]; exact chain_tail hch) ?_
          intro k r q h1 h2 hk
          rw [hact.1] at h1; subst h1
          rcases hchs.1 q hk with ⟨r, h3⟩ | ⟨p, g, h3, h4, h5, h6⟩
          · cases h3
            exfalso
            generalize s'.data.sd = d' at hS
            generalize hy : (.ret v : Act (STask α) (SFrame α φ)) = y at hS
            cases hS <;> cases hy
          · cases h3
            have := ret_set hS h4
            subst this
            exact ⟨p, was_mono hext ⟨(ty1_F hr (t := t) (g := .srDtor p []) (by rw [hst]; simp)).1, h6⟩, h5.mono hext⟩
        | throw v =>
          refine fin (by rw [hact.1]; exact chain_tail hch) ?_
          intro k r q _ h; rw [hact.2] at h; cases h
        | terminate =>
          refine fin (by rw [hact.1, hst]; exact hch) ?_
          intro k r q h1
          rw [hact.1, hst] at h1; cases h1; exact hS.not_app.elim
      | app x rest a he hst hd hact hA =>
        rw [hst] at hch
        obtain ⟨ch', hA⟩ := hA
        have cl : ∀ u, Core.chain (B.adj s'.data.sd) (u :: rest) := fun u => chain_replace hch fun l hl => B.adj_any (.inr ⟨x, rfl⟩) hl u
        have nope : ∀ g rest', B.E g = none → s'.stk t = .client (.app g) :: rest' → ∀ k r q, s'.stk t = .client (.app k) :: r → (s'.thr t).exc = none →
            B.E k = some q → ∃ p, was s'.data.sd p ∧ madeAt s'.data.sd q p := by
          intro g rest' hg h1 k r q h2 _ hk
          rw [h1] at h2; cases h2
          rw [hg] at hk; cases hk
        cases a with
        | goto g => exact fin (by rw [hact.1]; exact cl _) (nope g _ (B.goto hA) hact.1)
        | push g k => exact fin (by rw [hact.1]; exact ⟨B.adj_triv (B.push hA).2, cl _⟩) (nope g _ (B.push hA).1 hact.1)
        | core b k =>
          refine fin (by rw [hact.1]; exact ⟨B.adj_triv (B.core hA), cl _⟩) ?_
          intro k r q h; rw [hact.1] at h; cases h
        | sync b k =>
          refine fin ?_ ?_
          · rw [hact.1]
            refine ⟨fun q hq => ?_, cl _⟩
            obtain ⟨r, rfl⟩ := B.sync hA hq
            exact .inl ⟨r, rfl⟩
          · intro k r q h; rw [hact.1] at h; cases b <;> cases h
        | ret v =>
          refine fin (by rw [hact.1]; exact chain_tail hch) ?_
          intro k r q h1 h2 hk
          rw [hact.1] at h1; subst h1
          exfalso
          rcases hch.1 q hk with ⟨r, h3⟩ | ⟨p, g, h3, h4, h5, h6⟩
          · cases h3
          · cases h3; exact h4
        | throw v =>
          refine fin (by rw [hact.1]; exact chain_tail hch) ?_
          intro k r q _ h; rw [hact.2] at h; cases h
        | terminate =>
          refine fin (by rw [hact.1, hst]; exact hch) ?_
          intro k r q h1 _ hk
          rw [hact.1] at h1
          obtain ⟨p, hp1, hp2⟩ := w.top t k r q h1 he hk
          exact ⟨p, was_mono hext hp1, hp2.mono hext⟩
      | hand e f f' rest he hst hn hf hst' he' hd had =>
        rw [hst] at hch
        refine fin ?_ ?_
        · rw [hst']
          refine chain_replace hch fun l hl => ?_
          cases l with
          | core f => trivial
          | client x =>
            cases x <;> first | trivial | skip
            intro q hq
            exfalso
            rcases hl q hq with ⟨r, h1⟩ | ⟨p, g', h1, h2, h3, h4⟩
            · cases h1; cases hf
            · cases h1; exact hn (setFam_nt h2)
        · intro k r q h1 _ hk
          rw [hst'] at h1; cases h1
          exfalso
          cases f <;> simp only [sThrow, Option.some.injEq, Option.map_eq_some_iff, reduceCtorEq] at hf
          obtain ⟨x, hx, hx'⟩ := hf
          cases hx'
          rw [B.throw hx] at hk; cases hk
      | drop e f rest he hst hn hf hst' he' hd had =>
        rw [hst] at hch
        refine fin (by rw [hst']; exact chain_tail hch) ?_
        intro k r q _ he'' ; rw [he'] at he''; cases he''
      | core f rest pre hst hpre hst' hd had =>
        rw [hst] at hch
        refine fin ?_ ?_
        · rw [hst']
          have cl : ∀ u, Core.chain (B.adj s'.data.sd) (u :: rest) := fun u => chain_replace hch fun l hl => B.adj_any (.inl ⟨f, rfl⟩) hl u
          clear hst'
          induction pre with
          | nil => exact chain_tail hch
          | cons a pre ih =>
            have ih := ih (fun g hg => hpre g (List.mem_cons_of_mem _ hg))
            cases pre with
            | nil => exact cl a
            | cons b pre =>
              refine ⟨?_, ih⟩
              cases b with
              | core b => trivial
              | client g => exact B.adj_triv (hpre g (by simp))
        · intro k r q h1 _ hk
          rw [hst'] at h1
          cases pre with
          | nil =>
            exfalso
            simp only [List.nil_append] at h1
            rw [h1] at hch
            rcases hch.1 q hk with ⟨r, h3⟩ | ⟨p, g, h3, h4, h5, h6⟩
            · cases h3
            · cases h3
          | cons a pre =>
            cases h1
            have : B.E k = none := hpre (.app k) (by simp)
            rw [this] at hk; cases hk
      | still hst' he' hd had =>
        refine fin (by rw [hst']; exact hch) ?_
        intro k r q h1 h2 h3
        rw [hst'] at h1
        rcases he' with he' | he'
        · obtain ⟨p, hp1, hp2⟩ := w.top t k r q h1 (he'.symm.trans h2) h3
          exact ⟨p, was_mono hext hp1, hp2.mono hext⟩
        · rw [he'] at h1; cases h1

end AS
end
end Sync
end Itc
