import Verif.Sync.Deliver

/-!
# Nested waits of one thread on one semaphore (proof infrastructure, no claims)
-/
namespace Itc
namespace Sync
open Core
section
variable {α φ δ χ τ ψ ε : Type}

def wtF : Fr α φ → Option (SemId × Nat × Nat)
  | .client f => wtok f
  | .core _ => none

/-- Enclosing waits of the same id on the same semaphore have older or equal tokens. -/
def Ordd : List (Fr α φ) → Prop
  | [] => True
  | x :: rest => (∀ S i k, wtF x = some (S, i, k) → ∀ g ∈ rest, ∀ k', wtF g = some (S, i, k') → k' ≤ k) ∧ Ordd rest

theorem Ordd.app {new rest : List (Fr α φ)} (h : Ordd rest) (h1 : ∀ y ∈ new, ∀ z ∈ new, ∀ T U, wtF y = some T → wtF z = some U → T = U)
    (h2 : ∀ y ∈ new, ∀ S i k, wtF y = some (S, i, k) → ∀ g ∈ rest, ∀ k', wtF g = some (S, i, k') → k' ≤ k) : Ordd (new ++ rest) := by
  induction new with
  | nil => exact h
  | cons y new ih =>
    refine ⟨?_, ih (fun y hy z hz => h1 y (by simp [hy]) z (by simp [hz])) (fun y hy => h2 y (by simp [hy]))⟩
    intro S i k hy g hg k' hk'
    rcases List.mem_append.1 hg with hg | hg
    · have := h1 y (by simp) g (by simp [hg]) _ _ hy hk'
      simp only [Prod.mk.injEq] at this
      omega
    · exact h2 y (by simp) S i k hy g hg k' hk'

/-- What a step of thread `t` does to the waits on its stack. -/
inductive WSh (s s' : SSt α φ δ) (t : Nat) : Prop
  | same (h : s'.stk t = s.stk t)
  | old (x : Fr α φ) (rest new : List (Fr α φ)) (h0 : s.stk t = x :: rest) (h1 : s'.stk t = new ++ rest)
      (h : ∀ y ∈ new, ∀ T, wtF y = some T → wtF x = some T)
  | fresh (x : Fr α φ) (rest : List (Fr α φ)) (f : SFrame α φ) (S : SemId) (k : Nat) (h0 : s.stk t = x :: rest) (h1 : s'.stk t = .client f :: rest)
      (h : wtok f = some (S, s.getId t, k)) (hm : (s.getId t, k) ∈ s'.data.sd.sem S)

theorem triv_wt {f : SFrame α φ} (h : trivF f) : wtok f = none := by cases f <;> first | rfl | exact False.elim h

theorem sThrow_wt {onThrow : φ → Exn → Option φ} {f f' : SFrame α φ} {e : Exn} (h : sThrow onThrow f e = some f') : wtok f' = none := by
  cases f <;> simp only [sThrow, Option.some.injEq, reduceCtorEq, Option.map_eq_some_iff] at h
  · obtain ⟨x, -, rfl⟩ := h; rfl
  all_goals subst h; rfl

theorem add_mem (d : SData α) (t : Nat) (S : SemId) (i : Nat) : (i, (d.addWaiter t S i).2) ∈ (d.addWaiter t S i).1.sem S := by
  unfold SData.addWaiter
  split
  · rename_i w h
    have h1 := List.find?_some h
    have h2 := List.mem_of_find?_eq_some h
    simp only [beq_iff_eq] at h1
    rw [← h1]; exact h2
  · simp

theorem wsh {A : App α φ δ χ} {ad : δ} {f0 : φ} {s s' : SSt α φ δ} (hr : SR A ad f0 s) {t : Nat} {ch : Ch χ}
    (hs : Core.step (client A) s (.th t ch) = some s') : WSh s s' t := by
  have one : ∀ (x : Fr α φ) (rest : List (Fr α φ)) (y : SFrame α φ), s.stk t = x :: rest → s'.stk t = .client y :: rest → wtok y = none ∨ wtok y = wtF x →
      WSh s s' t := by
    intro x rest y h0 h1 h
    refine .old x rest [.client y] h0 h1 ?_
    intro z hz T hT
    rw [List.mem_singleton] at hz; subst hz
    have hT : wtok y = some T := hT
    rcases h with h | h
    · rw [h] at hT; cases hT
    · exact h ▸ hT
  have two : ∀ (x y : Fr α φ) (rest : List (Fr α φ)) (z : SFrame α φ), s.stk t = x :: rest → s'.stk t = y :: .client z :: rest → wtF y = none →
      wtok z = none ∨ wtok z = wtF x → WSh s s' t := by
    intro x y rest z h0 h1 hy h
    refine .old x rest [y, .client z] h0 h1 ?_
    intro w hw T hT
    simp only [List.mem_cons, List.not_mem_nil, or_false] at hw
    rcases hw with rfl | rfl
    · rw [hy] at hT; cases hT
    have hT : wtok z = some T := hT
    rcases h with h | h
    · rw [h] at hT; cases hT
    · exact h ▸ hT
  have pop : ∀ (x : Fr α φ) (rest : List (Fr α φ)), s.stk t = x :: rest → s'.stk t = rest → WSh s s' t :=
    fun x rest h0 h1 => .old x rest [] h0 h1 (by simp)
  rcases step_cl hs with ⟨f, rest, d', a, hexc, hold, hstep, hdata, hact, -⟩ | ⟨f, rest, hexc, hold, hcs, hdata, hcore⟩ | ⟨e, hexc, hst, ht, -, hdata, -⟩ |
    ⟨e, f, k, rest, hexc, hold, hf, hst, hexc', hdata, -⟩ | ⟨e, f, rest, hexc, hold, hf, hst, -, hdata, -⟩ |
    ⟨e, g, g', rest, hexc, hold, hg, hst, hexc', hdata, -⟩ | ⟨e, g, rest, hexc, hold, hg, hst, -, hdata, -⟩ | ⟨hold, hst, hexc', hdata, -⟩
  · cases client_cs hstep with
    | app g ad' sa hA =>
      cases sa <;> simp only [liftAct, ActTo] at hact
      · exact one _ _ _ hold hact.1 (.inl rfl)
      · exact two _ _ _ _ hold hact.1 rfl (.inl rfl)
      · exact two _ _ _ _ hold hact.1 rfl (.inl rfl)
      · rename_i a k'
        exact two _ _ _ _ hold hact.1 (by cases a <;> rfl) (.inl rfl)
      · exact pop _ _ hold hact.1
      · exact pop _ _ hold hact.1
      · exact .same hact.1
    | sync f sd a hS =>
      have hsd : s'.data.sd = sd := by rw [hdata]
      have la : ∀ {K : LK α} {c : Kont α} {b : Bool}, a = laNext K c b → WSh s s' t := by
        rintro K c b rfl
        cases K <;> cases b <;> simp only [laNext, ActTo, if_true, if_false, Bool.false_eq_true] at hact
        all_goals first
          | exact pop _ _ hold hact.1
          | exact one _ _ _ hold hact.1 (.inl rfl)
          | exact two _ _ _ _ hold hact.1 rfl (.inl rfl)
      generalize ha : a = a' at hS
      have hact' := ha ▸ hact
      cases hS
      case laRet K c => exact la ha
      case laEnd K c => exact la ha
      case swIn w => exact .fresh _ _ _ w.sem _ hold hact'.1 rfl (by rw [hsd]; exact add_mem _ _ _ _)
      case wfAdd w now e => exact .fresh _ _ _ w.sem _ hold hact'.1 rfl (by rw [hsd]; exact add_mem _ _ _ _)
      all_goals first
        | exact pop _ _ hold hact'.1
        | exact one _ _ _ hold hact'.1 (.inl rfl)
        | exact one _ _ _ hold hact'.1 (.inr rfl)
        | exact two _ _ _ _ hold hact'.1 rfl (.inl rfl)
        | exact two _ _ _ _ hold hact'.1 rfl (.inr rfl)
        | exact .same hact'.1
  · rcases hcs with ⟨new, h, hst, -⟩ | ⟨v, -, hst, -⟩ | ⟨e, -, hst, -⟩ | ⟨-, hst, -⟩
    · refine .old _ rest new hold hst ?_
      have hcodes := codes hr
      have hcode := hcodes.code t f (by rw [hold]; exact List.mem_cons_self)
      have tr : ∀ g, trivF g → ∀ T, wtF (.client g : Fr α φ) ≠ some T := by
        intro g hg T
        simp [wtF, triv_wt hg]
      intro y hy T hT
      exfalso
      cases h <;> simp only [List.mem_cons, List.not_mem_nil, or_false] at hy
      all_goals first
        | (subst hy; cases hT; done)
        | (rcases hy with rfl | rfl
           · first
              | (cases hT; done)
              | exact tr _ (client_triv _).2 _ hT
              | exact tr _ (client_triv _).1 _ hT
              | exact tr _ (hcodes.cb _ ‹_›) _ hT
              | exact tr _ (hcode _ rfl 0) _ hT
           · cases hT)
    · exact pop _ _ hold hst
    · exact pop _ _ hold hst
    · exact .same hst
  · exact .same hst
  · refine .old _ rest [.client ((client A).destroy k), .core (.rethrow e)] hold (by simpa using hst) ?_
    have := triv_wt (client_triv (A := A) k).2
    simp [wtF, this]
  · exact pop _ _ hold hst
  · exact one _ _ _ hold hst (.inl (sThrow_wt hg))
  · exact pop _ _ hold hst
  · exact .same (hst.trans hold.symm)


/-- A wait that ended because its token was interrupted. -/
def SigT (d : SData α) : SFrame α φ → Prop
  | .swRem _ _ k .sig => d.tok k = true ∧ k < d.ntok
  | .wfRem _ _ _ k .sig => d.tok k = true ∧ k < d.ntok
  | _ => True

theorem tok_keep {run destroy : α → φ} {v : View} {d d' : SData α} {rv : Val} {f : SFrame α φ} {a : Act (STask α) (SFrame α φ)}
    (hS : SS run destroy v d rv f d' a) {k : Nat} (h : d.tok k = true ∧ k < d.ntok) : d'.tok k = true ∧ k < d'.ntok := by
  cases sem_eff hS with
  | quiet _ h2 h3 _ => rw [h2, h3]; exact h
  | rem _ _ _ _ _ _ h2 h3 _ => rw [h2, h3]; exact h
  | take _ _ _ _ _ _ h2 h3 _ => rw [h2, h3]; exact h
  | add _ _ _ _ h2 h3 _ =>
    rw [h2, h3, set_ne _ _ (by omega)]
    exact ⟨h.1, by omega⟩
  | sig K i k' r hf hi _ h2 h3 hl =>
    rw [h2, h3]
    refine ⟨?_, h.2⟩
    by_cases hk : k = k'
    · subst hk; simp
    · rw [set_ne _ _ hk]; exact h.1

theorem SigT.keep {run destroy : α → φ} {v : View} {d d' : SData α} {rv : Val} {f : SFrame α φ} {a : Act (STask α) (SFrame α φ)}
    (hS : SS run destroy v d rv f d' a) {g : SFrame α φ} (h : SigT d g) : SigT d' g := by
  cases g <;> try trivial
  case swRem w i k y => cases y <;> first | trivial | exact tok_keep hS h
  case wfRem w i b k y => cases y <;> first | trivial | exact tok_keep hS h

theorem sigT {A : App α φ δ χ} {ad : δ} {f0 : φ} {s : SSt α φ δ} (h : SR A ad f0 s) {t : Nat} {f : SFrame α φ} (hf : .client f ∈ s.stk t) :
    SigT s.data.sd f := by
  let T : STy A (SR A ad f0) := {
    I := fun _ => True
    PF := fun d _ f => SigT d f
    PT := fun _ _ => True
    app := trivial
    entry := by intro d t a; cases a <;> trivial
    tapp := trivial
    step := by
      intro s t f rest d' a hj he hst hi hp hS
      refine ⟨trivial, fun _ _ h => h.keep hS, fun _ _ => trivial, ?_⟩
      have hI := sem_I hj
      have lt : ∀ k, s.data.sd.tok k = true → k < s.data.sd.ntok := fun k hk => hI.goneLt k (hI.tokGone hk)
      cases hS
      case laRet K c =>
        generalize decide ((s.thr t).rv ≠ .bool true) = b
        cases K <;> cases b <;> simp [laNext, ActOK, SigT]
      case laEnd K c => cases K <;> simp [laNext, ActOK, SigT]
      case swSig w i k h => exact ⟨h, lt k h⟩
      case wfSig w i k now e b h => exact ⟨h, lt k h⟩
      all_goals first
        | trivial
        | exact ⟨trivial, trivial⟩
    done := trivial
    task := fun _ _ => ⟨trivial, trivial⟩
    throw := by
      intro s t f rest e f' _ _ _ _ _ h
      cases f <;> simp only [sThrow, Option.some.injEq, reduceCtorEq, Option.map_eq_some_iff] at h
      · obtain ⟨x, -, rfl⟩ := h; trivial
      all_goals subst h; trivial }
  exact (T.sound trivial h).fr t _ hf


structure NI (s : SSt α φ δ) : Prop where
  ord : ∀ t, Ordd (s.stk t)
  own : ∀ t f S i k, .client f ∈ s.stk t → wtok f = some (S, i, k) → i ≠ 0 → ∃ c < s.nctx, (s.ctxs c).native = t ∧ (s.ctxs c).id = i
  lost : ∀ u g S i k, .client g ∈ s.stk u → wtok g = some (S, i, k) → i ≠ 0 → ∀ t l k' y, .left t S l k' y ∈ s.data.sd.slog → (i, k) ∈ l →
    t = u ∧ y ≠ .sig

theorem gone_of_left {log : List SEv} {t : Nat} {S : SemId} {l : List (Nat × Nat)} {k' : Nat} {y : Why} {x : Nat × Nat} (h : .left t S l k' y ∈ log)
    (hx : x ∈ l) : x.2 ∈ gone log := List.mem_flatMap.2 ⟨_, h, List.mem_map.2 ⟨x, hx, rfl⟩⟩

set_option tactic.hygienic false in
theorem nctx_mono {C : Client (STask α) (SFrame α φ) (Data α δ) χ} {s s' : SSt α φ δ} {t : Nat} (he : Eff C s t s') : s.nctx ≤ s'.nctx := by
  cases he
  case regNew => omega
  case regFound => omega
  case unreg => exact Nat.le_of_eq hn.symm
  all_goals exact Nat.le_of_eq hreg.nctx.symm

theorem ni {A : App α φ δ χ} {ad : δ} {f0 : φ} {s : SSt α φ δ} (hr : SR A ad f0 s) : NI s := by
  refine Reach.induct NI ?_ ?_ hr
  · have h0 : ∀ t, (Core.init { sd := {}, ad := ad } (.app f0) : SSt α φ δ).stk t = [.client (.app f0)] ∨
        (Core.init { sd := {}, ad := ad } (.app f0) : SSt α φ δ).stk t = [] := by
      intro t
      by_cases ht : t = 0
      · subst ht; left; simp [Core.init, St.stk]
      · right; simp [Core.init, St.stk, upd_ne _ _ ht]
    refine ⟨?_, ?_, ?_⟩
    · intro t; rcases h0 t with h | h <;> rw [h] <;> simp [Ordd]
    · intro t f S i k hf hw
      rcases h0 t with h | h <;> rw [h] at hf <;> simp at hf
      subst hf; cases hw
    · intro u g S i k hf hw
      rcases h0 u with h | h <;> rw [h] at hf <;> simp at hf
      subst hf; cases hw
  · intro s l s' hr ih hs
    cases l with
    | tick n => rw [step_tick _ s s' n hs]; exact ⟨ih.ord, ih.own, ih.lost⟩
    | th t ch =>
      have he := step_eff (client A) s s' t ch hs
      have hwf := WF.reach hr
      have hI := sem_I hr
      have hI' := sem_I (hr.step hs)
      have hsh := wsh hr hs
      have hmax : ∀ {S i k j k'}, (i, k) ∈ s'.data.sd.sem S → .enter j S i k' ∈ s'.data.sd.slog → k' ≤ k := by
        intro S i k j k' h1 h2
        by_contra hlt
        obtain ⟨x, hx⟩ := hI'.ent h1
        exact hI'.goneSem h1 (hI'.later hx h2 (by omega))
      -- where the waits of the new state come from
      have from_ : ∀ u g S i k, .client g ∈ s'.stk u → wtok g = some (S, i, k) →
          (∃ g', .client g' ∈ s.stk u ∧ wtok g' = some (S, i, k)) ∨ (u = t ∧ i = s.getId t ∧ (i, k) ∈ s'.data.sd.sem S) := by
        intro u g S i k hg hw
        by_cases hu : u = t
        · subst hu
          cases hsh with
          | same h => rw [h] at hg; exact .inl ⟨g, hg, hw⟩
          | old x rest new h0 h1 h =>
            rw [h1, List.mem_append] at hg
            rcases hg with hg | hg
            · have := h _ hg _ hw
              cases x with
              | core f => cases this
              | client f => exact .inl ⟨f, by rw [h0]; simp, this⟩
            · exact .inl ⟨g, by rw [h0]; simp [hg], hw⟩
          | fresh x rest f S' k' h0 h1 h hm =>
            rw [h1, List.mem_cons] at hg
            rcases hg with hg | hg
            · cases hg
              rw [hw] at h
              simp only [Option.some.injEq, Prod.mk.injEq] at h
              obtain ⟨rfl, rfl, rfl⟩ := h
              exact .inr ⟨rfl, rfl, hm⟩
            · exact .inl ⟨g, by rw [h0]; simp [hg], hw⟩
        · rcases hr.stk_oth hu hs with ⟨h1, -⟩ | ⟨f, rest, h1, -, -, h2, -⟩
          · rw [h1] at hg; exact .inl ⟨g, hg, hw⟩
          · have h3 := (codes hr).code t (.spawnIn u f) (by rw [h1]; simp) u
            rw [h2, List.mem_singleton] at hg
            cases hg
            rw [triv_wt h3] at hw; cases hw
      refine ⟨?_, ?_, ?_⟩
      · intro u
        by_cases hu : u = t
        · subst hu
          have ho := ih.ord u
          cases hsh with
          | same h => rw [h]; exact ho
          | old x rest new h0 h1 h =>
            rw [h1]
            rw [h0] at ho
            refine ho.2.app ?_ ?_
            · intro y hy z hz T U hT hU
              exact Option.some.inj ((h y hy T hT).symm.trans (h z hz U hU))
            · intro y hy S i k hk
              exact ho.1 S i k (h y hy _ hk)
          | fresh x rest f S' k' h0 h1 h hm =>
            rw [h1]
            rw [h0] at ho
            refine ⟨?_, ho.2⟩
            intro S i k hk g hg k'' hg'
            have hk : wtok f = some (S, i, k) := hk
            rw [hk] at h
            simp only [Option.some.injEq, Prod.mk.injEq] at h
            obtain ⟨rfl, rfl, rfl⟩ := h
            cases g with
            | core f => cases hg'
            | client g =>
              obtain ⟨j, hj⟩ := (sem_F (hr.step hs) (t := u) (f := g) (by rw [h1]; simp [hg])).wt _ _ _ hg'
              exact hmax hm hj
        · rcases hr.stk_oth hu hs with ⟨h1, -⟩ | ⟨f, rest, h1, -, -, h2, -⟩
          · rw [h1]; exact ih.ord u
          · rw [h2]; exact ⟨by simp, trivial⟩
      · intro u g S i k hg hw hi
        rcases from_ u g S i k hg hw with ⟨g', h1, h2⟩ | ⟨rfl, rfl, -⟩
        · obtain ⟨c, hc, h3, h4⟩ := ih.own u g' S i k h1 h2 hi
          have := same_id he c hc
          exact ⟨c, Nat.lt_of_lt_of_le hc (nctx_mono he), by rw [this.1, h3], by rw [this.2, h4]⟩
        · cases hl : s.loc u with
          | none => exact absurd (by simp only [St.loc] at hl; simp [St.getId, hl]) hi
          | some c =>
            have h5 := hwf.loc u c hl
            have := same_id he c h5.1
            refine ⟨c, Nat.lt_of_lt_of_le h5.1 (nctx_mono he), by rw [this.1, h5.2.1], ?_⟩
            simp only [St.loc] at hl
            rw [this.2]; simp [St.getId, hl]
      · intro u g S i k hg hw hi v l k' y hl hx
        rcases from_ u g S i k hg hw with ⟨g', h1, h2⟩ | ⟨rfl, rfl, hm⟩
        · by_cases hold : .left v S l k' y ∈ s.data.sd.slog
          · exact ih.lost u g' S i k h1 h2 hi v l k' y hold hx
          · rcases step_sd hs with h | ⟨t', ch', f, rest, a, hlb, hexc, hst, hS⟩
            · rw [h] at hl; exact absurd hl hold
            · cases hlb
              obtain ⟨w, i0, y0, hf, hsem, hnew⟩ : ∃ w i0 y0, (f = .swRem w i0 k' y0 ∨ ∃ b, f = .wfRem w i0 b k' y0) ∧
                  SEv.left v S l k' y = .left t w.sem ((s.data.sd.sem w.sem).filter (fun x => x.1 == i0)) k' y0 ∧
                  s'.data.sd.slog = .left t w.sem ((s.data.sd.sem w.sem).filter (fun x => x.1 == i0)) k' y0 :: s.data.sd.slog := by
                have nl : ∀ e, isSemEv e = false ∨ goneT e = [] ∨ (∃ t S l, e = .took t S l) → s'.data.sd.slog = e :: s.data.sd.slog → e ≠ .left v S l k' y → False := by
                  intro e _ h4 hne
                  rw [h4, List.mem_cons] at hl
                  rcases hl with hl | hl
                  · exact hne hl.symm
                  · exact hold hl
                cases sem_eff hS with
                | quiet _ _ _ h4 =>
                  rcases h4 with h4 | ⟨e, h5, h4⟩
                  · rw [h4] at hl; exact absurd hl hold
                  · exact (nl e (.inl h5) h4 (by rintro rfl; cases h5)).elim
                | add _ _ _ _ _ _ h4 => exact (nl _ (.inr (.inl rfl)) h4 (by simp)).elim
                | take _ _ _ _ _ _ _ _ h4 => exact (nl _ (.inr (.inr ⟨_, _, _, rfl⟩)) h4 (by simp)).elim
                | sig _ _ _ _ _ _ _ _ _ h4 => exact (nl _ (.inr (.inl rfl)) h4 (by simp)).elim
                | rem w i0 k0 y0 hf _ _ _ h4 =>
                  rw [h4, List.mem_cons] at hl
                  rcases hl with hl | hl
                  · have hl' := hl
                    simp only [SEv.left.injEq] at hl'
                    obtain ⟨-, -, -, rfl, -⟩ := hl'
                    exact ⟨w, i0, y0, hf, hl, h4⟩
                  · exact absurd hl hold
              simp only [SEv.left.injEq, true_and] at hsem
              obtain ⟨rfl, rfl, rfl, rfl⟩ := hsem
              obtain ⟨hx1, hx2⟩ := List.mem_filter.1 hx
              simp only [beq_iff_eq] at hx2
              subst hx2
              have hwf' : wtok f = some (w.sem, i, k') := by
                rcases hf with rfl | ⟨b, rfl⟩ <;> rfl
              have hfm : .client f ∈ s.stk v := by rw [hst]; simp
              obtain ⟨c, hc, hc1, hc2⟩ := ih.own v f _ _ _ hfm hwf' hi
              obtain ⟨c', hc', hc1', hc2'⟩ := ih.own u g' _ _ _ h1 h2 hi
              have := hwf.inj c c' hc hc' (hc2.trans hc2'.symm)
              subst this
              have hvu : v = u := hc1.symm.trans hc1'
              subst hvu
              refine ⟨rfl, ?_⟩
              rintro rfl
              have hsig : s.data.sd.tok k' = true := by
                have := sigT hr hfm
                rcases hf with rfl | ⟨b, rfl⟩ <;> exact this.1
              obtain ⟨j, hj⟩ := (sem_F hr hfm).wt _ _ _ hwf'
              obtain ⟨j', hj'⟩ := (sem_F hr h1).wt _ _ _ h2
              have hlt : k' < k := by
                rcases Nat.lt_trichotomy k k' with h | h | h
                · exact absurd (hI.later hj' hj h) (hI.goneSem hx1)
                · subst h; exact absurd (hI.tokGone hsig) (hI.goneSem hx1)
                · exact h
              -- the wait is still on the stack, so it encloses the one that ends
              have hrest : ∃ z ∈ rest, wtF z = some (w.sem, i, k) := by
                rw [hst, List.mem_cons] at h1
                rcases h1 with h1 | h1
                · cases h1
                  rw [hwf'] at h2
                  simp only [Option.some.injEq, Prod.mk.injEq, true_and] at h2
                  omega
                · exact ⟨_, h1, h2⟩
              obtain ⟨z, hz, hzw⟩ := hrest
              have ho := ih.ord v
              rw [hst] at ho
              have := ho.1 _ _ _ hwf' z hz k hzw
              omega
        · exact absurd (gone_of_left hl hx) (hI'.goneSem hm)

theorem todo_id {A : App α φ δ χ} {ad : δ} {f0 : φ} {s : SSt α φ δ} (hr : SR A ad f0 s) {u i k w j : Nat} {S : SemId} {g : SFrame α φ}
    (hent : .enter u S i k ∈ s.data.sd.slog) (hg : .client g ∈ s.stk w) (hm : (j, k) ∈ todo g) : j = i ∧ ∃ l, .took w S l ∈ s.data.sd.slog ∧ (i, k) ∈ l := by
  obtain ⟨S', l, h1, h2⟩ := (sem_F hr hg).td _ hm
  obtain ⟨x, hx⟩ := (sem_I hr).tookEnt h1 h2
  obtain ⟨-, rfl, rfl⟩ := (sem_I hr).entUq hent hx
  exact ⟨rfl, l, h1, h2⟩

/-- What became of an entry of a waiter list. -/
theorem fate {A : App α φ δ χ} {ad : δ} {f0 : φ} {s : SSt α φ δ} (hr : SR A ad f0 s) {u i k : Nat} {S : SemId}
    (hent : .enter u S i k ∈ s.data.sd.slog) (hi : i ≠ 0) : (i, k) ∈ s.data.sd.sem S ∨ s.data.sd.tok k = true ∨
      (∃ w g, .client g ∈ s.stk w ∧ (i, k) ∈ todo g) ∨ ∃ w l k' y, .left w S l k' y ∈ s.data.sd.slog ∧ (i, k) ∈ l := by
  have hI := sem_I hr
  rcases hI.cov k (hI.entLt hent) with h | ⟨S', x, hx, rfl⟩
  · right
    obtain ⟨e, he, hk⟩ := List.mem_flatMap.1 h
    cases e <;> simp only [goneT, List.not_mem_nil] at hk
    case left w S' l k' y =>
      obtain ⟨⟨j, k⟩, hx, rfl⟩ := List.mem_map.1 hk
      obtain ⟨z, hz⟩ := hI.leftEnt he hx
      obtain ⟨-, rfl, rfl⟩ := hI.entUq hent hz
      exact .inr (.inr ⟨w, l, k', y, he, hx⟩)
    case took w S' l =>
      obtain ⟨⟨j, k⟩, hx, rfl⟩ := List.mem_map.1 hk
      obtain ⟨z, hz⟩ := hI.tookEnt he hx
      obtain ⟨-, rfl, rfl⟩ := hI.entUq hent hz
      by_cases ht : s.data.sd.tok k = true
      · exact .inl ht
      · simp only [Bool.not_eq_true] at ht
        obtain ⟨g, j, hg, hj, -⟩ := inflight hr he hx hi ht
        obtain ⟨rfl, -⟩ := todo_id hr hent hg hj
        exact .inr (.inl ⟨w, g, hg, hj⟩)
  · left
    obtain ⟨z, hz⟩ := hI.ent (i := x.1) (k := x.2) hx
    obtain ⟨-, rfl, rfl⟩ := hI.entUq hent hz
    exact hx

theorem slog_mono {A : App α φ δ χ} {s s' : SSt α φ δ} {l : Lbl χ} (hs : Core.step (client A) s l = some s') {e : SEv} (h : e ∈ s.data.sd.slog) :
    e ∈ s'.data.sd.slog := by
  obtain ⟨es, h1⟩ := (step_ext hs).log
  rw [h1]; exact List.mem_append.2 (.inr h)

theorem gone_mono {A : App α φ δ χ} {s s' : SSt α φ δ} {l : Lbl χ} (hs : Core.step (client A) s l = some s') {k : Nat} (h : k ∈ gone s.data.sd.slog) :
    k ∈ gone s'.data.sd.slog := by
  obtain ⟨e, he, hk⟩ := List.mem_flatMap.1 h
  exact List.mem_flatMap.2 ⟨e, slog_mono hs he, hk⟩

/-- The thread can unblock at once. -/
def CanWake (C : Client τ ψ ε χ) (s : St τ ψ ε) (u : Nat) : Prop :=
  ∃ s', Core.step C s (.th u .go) = some s' ∧ ∀ c dl rest, s'.stk u ≠ .core (.parked c dl) :: rest

end
end Sync
namespace Core
section
variable {τ φ δ χ : Type}
theorem wake_step {C : Client τ φ δ χ} {d : δ} {f : φ} {s : St τ φ δ} (h : Reach C d f s) (hub : s.ub = false) (hterm : s.term = false) {t c : Nat}
    {dl : Option Nat} {rest : List (Frame τ φ)} (hst : s.stk t = .core (.parked c dl) :: rest) (hin : InReg s c)
    (hw : (s.ctxs c).pend ≠ [] ∨ (s.ctxs c).exit = true) : Sync.CanWake C s t := by
  have hq := QInv.reach h
  have hwf := WF.reach h
  have hk := hq.wake t c dl rest hst
  have hwk := hk.1 hw
  have hcv := hk.2 hwk
  have hal : (s.ctxs c).life = .alive := by obtain ⟨i, hi⟩ := hin; exact (hwf.mem i c hi).2.2
  have hrun := running_of_stk (FreeOK.reach h) (t := t) (by rw [hst]; simp)
  have hexc : (s.thr t).exc = none := by
    by_contra hne
    have := EInv.reach h t hne (.core (.parked c dl)) (by rw [hst]; simp)
    simp [Frame.leaf] at this
  have hst' : (s.thr t).stack = .core (.parked c dl) :: rest := hst
  have htail : ∀ c' dl' rest', rest ≠ Frame.core (.parked c' dl') :: rest' := by
    intro c' dl' rest' h1
    have := hwf.tail t (.core (.parked c' dl')) (by rw [hst]; simp [h1])
    simp [Frame.leaf] at this
  have hstep : step C s (.th t .go) = stepCore C s t (.parked c dl) rest .go := by
    simp only [step, hub, hterm, hrun, hexc, hst']
    simp
  unfold Sync.CanWake
  rw [hstep]
  simp only [stepCore]
  rw [if_neg (by simp [hal]), if_pos hcv, if_pos hwk]
  split
  · refine ⟨_, rfl, ?_⟩
    intro c' dl' rest'
    simp [St.stk, St.startTask, St.setStk]
  · refine ⟨_, rfl, ?_⟩
    intro c' dl' rest'
    simp only [St.stk, St.ret, upd_same]
    exact htail c' dl' rest'
end
end Core
namespace Sync
open Core
section
variable {α φ δ χ : Type}

/-- After `notify_all` every earlier entry of the list is gone. -/
theorem na_gone {A : App α φ δ χ} {ad : δ} {i0 : φ} {s0 s s' : SSt α φ δ} (hr : SR A ad i0 s0) {v n : Nat} {K : NK α} {rest : List (Fr α φ)}
    (hK : ∀ p l, K ≠ .fut p l) (hst : s0.stk v = .client (.naIn K) :: rest) (hf : Frag (client A) v rest s0 n s) {l : Lbl χ}
    (hs : Core.step (client A) s l = some s')
    (hend : s'.stk v = rest) {u i k : Nat} (hent : .enter u K.sem i k ∈ s0.data.sd.slog) : k ∈ gone s'.data.sd.slog := by
  have key := SFrag.ind (fun f s => (f = .naIn K ∧ .enter u K.sem i k ∈ s.data.sd.slog) ∨
      ((∃ l, f = .nLoop K l) ∨ (∃ i k l, f = .nCall K i k l) ∨ (∃ i k l, f = .nAfter K i k l) ∨ f = .term none) ∧ k ∈ gone s.data.sd.slog)
      hr hst (.inl ⟨rfl, hent⟩) (by rintro g s (⟨h, -⟩ | ⟨⟨_, h⟩ | ⟨_, _, _, h⟩ | ⟨_, _, _, h⟩ | h, -⟩) <;> cases h) ?_ ?_ ?_ hf
  · obtain ⟨pre, f, hst', h⟩ := key
    have hterm := step_live hs
    have h := h.resolve_left (by rw [hterm]; simp)
    have hna : ∀ g, f ≠ .app g := by
      rintro g rfl
      rcases h with ⟨h, -⟩ | ⟨⟨_, h⟩ | ⟨_, _, _, h⟩ | ⟨_, _, _, h⟩ | h, -⟩ <;> cases h
    obtain ⟨rfl, hlast, -⟩ := SFrag.last (hf.reach hr) hst' hs hend hna
    rcases h with ⟨rfl, -⟩ | ⟨-, h⟩
    · exfalso
      cases hlast with
      | ret v d' _ hS => generalize hret : (.ret v : Act (STask α) (SFrame α φ)) = a at hS; cases hS; cases hret
      | throw v d' _ hS => generalize hret : (.throw v : Act (STask α) (SFrame α φ)) = a at hS; cases hS; cases hret
      | unwind e _ hnt _ _ => exact hnt trivial
    · exact gone_mono hs h
  · intro s1 s2 f g d' a ch hr1 hst1 he hp hS hc hd hs hck hst2
    rcases hp with ⟨rfl, hp⟩ | ⟨hp, hk⟩
    · cases hS
      cases hc
      refine .inr ⟨.inl ⟨_, rfl⟩, ?_⟩
      have hI := sem_I hr1
      rcases hI.cov k (hI.entLt hp) with h | ⟨S', x, hx, rfl⟩
      · exact gone_mono hs h
      · obtain ⟨z, hz⟩ := hI.ent (i := x.1) (k := x.2) hx
        obtain ⟨-, rfl, rfl⟩ := hI.entUq hp hz
        rw [hd]
        simp only [gone, List.flatMap_cons, List.mem_append, goneT]
        exact .inl (List.mem_map.2 ⟨x, hx, rfl⟩)
    · refine .inr ⟨?_, gone_mono hs hk⟩
      rcases hp with ⟨_, rfl⟩ | ⟨_, _, _, rfl⟩ | ⟨_, _, _, rfl⟩ | rfl
      · cases hS <;> first | (cases hc; done) | skip
        · exact absurd rfl (hK _ _)
        · cases hc; exact .inl ⟨_, rfl⟩
        · cases hc; exact .inr (.inl ⟨_, _, _, rfl⟩)
      · cases hS; cases hc; exact .inr (.inr (.inl ⟨_, _, _, rfl⟩))
      · cases hS; cases hc; exact .inl ⟨_, rfl⟩
      · cases hS; cases hc
  · intro s1 s2 f g e hr1 hst1 he hp hnt hf hd
    rcases hp with ⟨rfl, -⟩ | ⟨hp, hk⟩
    · exact (hnt trivial).elim
    · rcases hp with ⟨_, rfl⟩ | ⟨_, _, _, rfl⟩ | ⟨_, _, _, rfl⟩ | rfl
      · exact (hnt trivial).elim
      · exact (hnt trivial).elim
      · cases hf; exact .inr ⟨.inr (.inr (.inr rfl)), by rw [hd]; exact hk⟩
      · cases hf
  · intro s1 s2 f l hr1 hp hs h1 h2 h3
    rcases hp with ⟨rfl, hp⟩ | ⟨hp, hk⟩
    · exact .inl ⟨rfl, slog_mono hs hp⟩
    · exact .inr ⟨hp, gone_mono hs hk⟩

theorem _root_.Itc.Core.Frag.slog {A : App α φ δ χ} {t n : Nat} {rest : List (Fr α φ)} {s s' : SSt α φ δ} (h : Frag (client A) t rest s n s') {e : SEv}
    (he : e ∈ s.data.sd.slog) : e ∈ s'.data.sd.slog := by
  induction h with
  | here => exact he
  | next l pre f _ hs _ _ ih => exact slog_mono hs ih
  | start l pre f _ hs _ _ _ _ _ ih => exact slog_mono hs ih

/-- A thread in the middle of waking up the waiter `(i, k)`: it still has to signal it or it is bringing the wake-up. -/
def Delivering (s : SSt α φ δ) (w i k : Nat) : Prop :=
  ∃ g, .client g ∈ s.stk w ∧ ((i, k) ∈ todo g ∨ cur g = some (i, k))

theorem Dlvr.delivering {s : SSt α φ δ} {v i k c : Nat} (hd : Dlvr s v i k c) : Delivering s v i k := by
  cases hd with
  | call K l rest h1 => exact ⟨_, by rw [h1]; exact List.mem_cons_self, .inr rfl⟩
  | disp K l rest h1 => exact ⟨.nAfter K i k l, by rw [h1]; simp, .inr rfl⟩
  | look K l rest h1 => exact ⟨.nAfter K i k l, by rw [h1]; simp, .inr rfl⟩
  | push K l rest h1 => exact ⟨.nAfter K i k l, by rw [h1]; simp, .inr rfl⟩

/-- Thread `u` is blocked in a wait on `S` that it entered under id `i`, with token `k`, and is registered with that id. -/
def BlockedIn (s : SSt α φ δ) (u : Nat) (S : SemId) (i k : Nat) : Prop :=
  ∃ c dl g rest, s.stk u = .core (.parked c dl) :: .client g :: rest ∧ wtok g = some (S, i, k) ∧ s.find i = some c

/-- A blocked waiter whose token is interrupted can wake up, or somebody is bringing the wake-up. -/
theorem blocked_wakes {A : App α φ δ χ} {ad : δ} {f0 : φ} {s : SSt α φ δ} (hr : SR A ad f0 s) (hub : s.ub = false) (hterm : s.term = false)
    {u i k : Nat} {S : SemId} (hb : BlockedIn s u S i k) (htok : s.data.sd.tok k = true) : CanWake (client A) s u ∨ ∃ v, u ≠ v ∧ Delivering s v i k := by
  obtain ⟨c, dl, g, rest, hst, hw, hfind⟩ := hb
  have hwf := WF.reach hr
  have hm := find_some hfind
  have hc := hwf.mem i c hm
  rcases deliver hr hterm (.blk _ g rest hst trivial hw) (hwf.prk u c dl _ hst) ⟨i, hm⟩ hc.2.1 htok with h | ⟨v, h1, h2⟩
  · exact .inl (wake_step hr hub hterm hst ⟨i, hm⟩ h)
  · exact .inr ⟨v, h1, h2.delivering⟩
end
end Sync
end Itc
