import Verif.Sync.ASet

/-!
# Who holds a `std::mutex` of the application (proof infrastructure, no claims)

`AH`: a mutex that the application uses only as a bracket; while it is locked, its owner has a frame of the critical section on its stack.
-/
namespace Itc
namespace Sync
open Core
section
variable {α φ δ χ : Type} {A : App α φ δ χ} {ad0 : δ} {f0 : φ}

/-- Not a wait of a condition variable with the mutex `n`. -/
def W.ncv (n : Nat) : W → Prop
  | .cv _ m => m ≠ n
  | _ => True

def ncv (n : Nat) : SFrame α φ → Prop
  | .cwIn _ m => m ≠ n
  | .cfIn _ m _ => m ≠ n
  | .swIn w => w.ncv n
  | .swLoop w _ _ => w.ncv n
  | .swChk w _ _ => w.ncv n
  | .swBefore w _ _ => w.ncv n
  | .swAfter w _ _ => w.ncv n
  | .swRem w _ _ _ => w.ncv n
  | .wfIn w _ => w.ncv n
  | .wfAdd w _ _ => w.ncv n
  | .wfLoop w _ _ _ _ _ => w.ncv n
  | .wfChk w _ _ _ _ _ => w.ncv n
  | .wfBefore w _ _ _ _ => w.ncv n
  | .wfAfter w _ _ _ => w.ncv n
  | .wfNow w _ _ _ _ => w.ncv n
  | .wfRem w _ _ _ _ => w.ncv n
  | _ => True

theorem W.ncv_lk {n : Nat} {w : W} (h : w.ncv n) {l : Lk} (hl : w.lk = some l) : l ≠ .user n := by
  cases w <;> simp only [W.lk, Option.some.injEq, reduceCtorEq] at hl <;> subst hl <;> simp
  exact h

theorem setLk_ne {d : SData α} {l l' : Lk} {o : Option Nat} (h : l ≠ l') : (d.setLk l o).lk l' = d.lk l' := by
  simp [SData.setLk, set, Ne.symm h]

theorem relLk_ne {n : Nat} {d : SData α} {w : W} (h : w.ncv n) : (d.relLk w.lk).lk (.user n) = d.lk (.user n) := by
  cases hl : w.lk with
  | none => rfl
  | some l => exact setLk_ne (w.ncv_lk h hl)

theorem ss_lk {run destroy : α → φ} {v : View} {d d' : SData α} {rv : Val} {f : SFrame α φ} {a : Act (STask α) (SFrame α φ)} {n u : Nat}
    (h : SS run destroy v d rv f d' a) (hf : ncv n f) (hl : d'.lk (.user n) = some u) :
    (d.lk (.user n) = some u ∧ (f ≠ .lkUn n ∨ a = .terminate)) ∨ (f = .lkIn n ∧ (∃ r, a = .ret r) ∧ u = v.tid) := by
  cases h
  case lkIn m hm =>
    by_cases hnm : m = n
    · subst hnm
      simp [SData.setLk] at hl
      exact .inr ⟨rfl, ⟨_, rfl⟩, hl.symm⟩
    · rw [setLk_ne (by simpa using hnm)] at hl
      exact .inl ⟨hl, .inl (by simp)⟩
  case lkUn m hm =>
    by_cases hnm : m = n
    · subst hnm
      simp [SData.setLk] at hl
    · rw [setLk_ne (by simpa using hnm)] at hl
      exact .inl ⟨hl, .inl (by simpa using hnm)⟩
  case swBefore => rw [relLk_ne hf] at hl; exact .inl ⟨hl, .inl (by simp)⟩
  case wfBefore => rw [relLk_ne hf] at hl; exact .inl ⟨hl, .inl (by simp)⟩
  case swAfterL w i k l hw _ => rw [setLk_ne (w.ncv_lk hf hw)] at hl; exact .inl ⟨hl, .inl (by simp)⟩
  case wfAfterL w i k e l hw _ => rw [setLk_ne (w.ncv_lk hf hw)] at hl; exact .inl ⟨hl, .inl (by simp)⟩
  case swIn w =>
    refine .inl ⟨?_, .inl (by simp)⟩
    simp only [SData.addWaiter] at hl
    split at hl <;> exact hl
  case wfAdd w now e =>
    refine .inl ⟨?_, .inl (by simp)⟩
    simp only [SData.addWaiter] at hl
    split at hl <;> exact hl
  all_goals
    refine .inl ⟨?_, by first | exact .inr rfl | exact .inl (by simp)⟩
    first
    | exact hl
    | (simpa [SData.setLk, SData.ev, SData.setSt, SData.mkState, SData.remWaiter, SData.addWaiter, upd] using hl)

theorem ss_to {run destroy : α → φ} {v : View} {d d' : SData α} {rv : Val} {f : SFrame α φ} {a : Act (STask α) (SFrame α φ)} {n : Nat}
    (h : SS run destroy v d rv f d' a) (hf : ncv n f) (g : SFrame α φ)
    (hg : a = .goto g ∨ (∃ k, a = .push g k) ∨ (∃ f, a = .push f g) ∨ ∃ b, a = .call b g) : ncv n g ∧ g ≠ .lkIn n := by
  cases h
  case laRet K c =>
    cases K <;> simp only [laNext] at hg <;> (try split at hg) <;> simp at hg <;>
      (try (rcases hg with rfl | rfl <;> exact ⟨trivial, by simp⟩)) <;> subst hg <;> exact ⟨trivial, by simp⟩
  case laEnd K c =>
    cases K <;> simp only [laNext] at hg <;> (try split at hg) <;> simp at hg <;>
      (try (rcases hg with rfl | rfl <;> exact ⟨trivial, by simp⟩)) <;> subst hg <;> exact ⟨trivial, by simp⟩
  all_goals
    simp at hg <;> first
    | (subst hg; exact ⟨hf, by simp⟩)
    | (subst hg; exact ⟨trivial, by simp⟩)
    | (rcases hg with rfl | rfl <;> exact ⟨trivial, by simp⟩)
    | (subst hg; exact ⟨by simpa [ncv, W.ncv] using hf, by simp⟩)

def SApi.ncv (n : Nat) : SApi α → Prop
  | .cvWait _ m => m ≠ n
  | .cvWaitFor _ m _ => m ≠ n
  | _ => True

structure AH (A : App α φ δ χ) (f0 : φ) where
  n : Nat
  /-- Frames of the critical section. -/
  H : φ → Prop
  /-- Frames at which no exception arrives: below them there is at most the lock function. -/
  Q : φ → Prop
  q0 : ¬ Q f0
  h0 : ¬ H f0
  run : ∀ a, ¬ Q (A.run a) ∧ ¬ Q (A.destroy a)
  code : ∀ {v ad f rv ch ad' a k}, A.step v ad f rv ch = some (ad', .core a k) → ApiOK (fun _ g => ¬ Q g) (fun _ => True) a
  app : ∀ {v ad f rv ch ad' sa}, A.step v ad f rv ch = some (ad', sa) → match sa with
    | .goto g => H f → H g
    | .push _ k => ¬ Q k ∧ (H f → H k)
    | .core _ k => ¬ Q k ∧ (H f → H k)
    | .sync a k => a.ncv n ∧ (Q k → a = .lock n) ∧ (a = .lock n → H k) ∧ (H f → H k ∨ a = .unlock n)
    | .ret _ => ¬ H f
    | .throw _ => ¬ H f
    | .terminate => True
  throw : ∀ {f} e, H f → ¬ Q f → ∃ f', A.onThrow f e = some f' ∧ H f'

namespace AH
variable (B : AH A f0)

def T : SFrame α φ → Prop
  | .app g => ¬ B.Q g
  | .done _ => True
  | .ftRun _ _ => True
  | .ftDtor _ _ => True
  | _ => False

/-- Holds the mutex. -/
def hf : SFrame α φ → Prop
  | .app g => B.H g
  | .lkUn m => m = B.n
  | _ => False

def adj (l : Option (Fr α φ)) (u : Fr α φ) : Prop :=
  (u = .client (.lkIn B.n) → ∃ k, l = some (.client (.app k)) ∧ B.H k) ∧ (∀ k, l = some (.client (.app k)) → B.Q k → u = .client (.lkIn B.n))

def chain : List (Fr α φ) → Prop
  | [] => True
  | u :: rest => B.adj rest.head? u ∧ chain rest

structure Ok (s : SSt α φ δ) : Prop where
  cv : ∀ u f, .client f ∈ s.stk u → ncv B.n f
  chain : ∀ u, B.chain (s.stk u)
  exc : ∀ u k rest, (s.thr u).exc ≠ none → s.stk u = .client (.app k) :: rest → ¬ B.Q k
  held : ∀ u, s.data.sd.lk (.user B.n) = some u → ∃ f, .client f ∈ s.stk u ∧ B.hf f

theorem codes {s : SSt α φ δ} (h : SR A ad0 f0 s) : Codes B.T s := by
  refine Codes.reach ?_ h
  intro v d f rv ch d' a k hs
  have key : ∀ x, (client A).step v d f rv ch = some (d', x) → x = .call a k → ApiOK (fun _ g => B.T g) (fun _ => True) a := by
    intro x hs hx
    cases client_cs hs with
    | app g ad sa hA =>
      clear hs
      cases sa <;> simp [liftAct] at hx
      obtain ⟨rfl, -⟩ := hx
      rename_i a' k'
      have := B.code hA
      clear hA
      cases a' <;> simp only [mapApi, ApiOK] at this ⊢ <;> first | trivial | exact this | skip
      intro f hf u
      simp only [Option.mem_def, Option.map_eq_some_iff] at hf
      obtain ⟨g, hg, rfl⟩ := hf
      exact this g hg u
    | sync f sd x hS =>
      cases hS
      case laRet K c => exact (laNext_call hx).elim
      case laEnd K c => exact (laNext_call hx).elim
      all_goals first | (cases hx; done) | (cases hx; trivial)
  exact key _ hs rfl

theorem T_ncv {g : SFrame α φ} (h : B.T g) : ncv B.n g ∧ g ≠ .lkIn B.n ∧ ∀ k, g = .app k → ¬ B.Q k := by
  cases g <;> first | exact False.elim h | (refine ⟨trivial, by simp, ?_⟩; rintro k ⟨⟩; first | done | exact h)

/-- A frame that is not the lock function may be put above a frame that is not quiet. -/
theorem adj_of {l : Option (Fr α φ)} {u : Fr α φ} (h1 : u ≠ .client (.lkIn B.n)) (h2 : ∀ k, l = some (.client (.app k)) → ¬ B.Q k) : B.adj l u :=
  ⟨fun h => absurd h h1, fun k hk hq => absurd hq (h2 k hk)⟩

theorem adj_rep {l : Option (Fr α φ)} {u u' : Fr α φ} (h : B.adj l u) (h0 : u ≠ .client (.lkIn B.n)) (h1 : u' ≠ .client (.lkIn B.n)) : B.adj l u' :=
  ⟨fun h => absurd h h1, fun k hk hq => absurd (h.2 k hk hq) h0⟩

theorem chain_pre {pre rest : List (Fr α φ)} {f : Fr α φ} (hf : f ≠ .client (.lkIn B.n)) (h : B.chain (f :: rest))
    (hp : ∀ g ∈ pre, g ≠ .client (.lkIn B.n) ∧ ∀ k, g = .client (.app k) → ¬ B.Q k) : B.chain (pre ++ rest) := by
  induction pre with
  | nil => exact h.2
  | cons u pre ih =>
    have ih := ih (fun g hg => hp g (List.mem_cons_of_mem _ hg))
    have hu := (hp u List.mem_cons_self).1
    cases pre with
    | nil => exact ⟨B.adj_rep h.1 hf hu, ih⟩
    | cons l pre => exact ⟨B.adj_of hu (fun k hk => (hp l (by simp)).2 k (by simpa using hk)), ih⟩

theorem ok {s : SSt α φ δ} (h : SR A ad0 f0 s) : B.Ok s := by
  refine Reach.induct B.Ok ?_ ?_ h
  · have hs : ∀ u f, .client f ∈ (Core.init { sd := {}, ad := ad0 } (.app f0) : SSt α φ δ).stk u → f = .app f0 := by
      intro u f hf
      by_cases hu : u = 0
      · subst hu; simpa [Core.init, St.stk] using hf
      · simp [Core.init, St.stk, upd_ne _ _ hu] at hf
    refine ⟨?_, ?_, ?_, ?_⟩
    · intro u f hf; rw [hs u f hf]; trivial
    · intro u
      by_cases hu : u = 0
      · subst hu; simp [Core.init, St.stk, chain, adj]
      · simp [Core.init, St.stk, upd_ne _ _ hu, chain]
    · intro u k rest _ hk
      have := hs u (.app k) (by rw [hk]; simp)
      cases this; exact B.q0
    · intro u hu; simp [Core.init] at hu
  · intro s l s' hr q hs
    cases l with
    | tick n => rw [step_tick _ s s' n hs]; exact ⟨q.cv, q.chain, q.exc, q.held⟩
    | th t ch =>
      have hT0 : ∀ {g}, B.T g → _ := fun {g} => B.T_ncv (g := g)
      have hrun : ∀ k, B.T ((client A).run k) := by
        intro k; cases k <;> first | trivial | exact (B.run _).1
      have hdes : ∀ k, B.T ((client A).destroy k) := by
        intro k; cases k <;> first | trivial | exact (B.run _).2
      have hm := mvT hr (B.codes hr) hrun hdes hs
      have hoth := fun u (hu : u ≠ t) => mv_othT hr (B.codes hr) hs hu
      have key : (∀ f, .client f ∈ s'.stk t → ncv B.n f) → B.chain (s'.stk t) →
          (∀ k rest, (s'.thr t).exc ≠ none → s'.stk t = .client (.app k) :: rest → ¬ B.Q k) →
          (∀ u, s'.data.sd.lk (.user B.n) = some u → s.data.sd.lk (.user B.n) = some u ∨ u = t) →
          (s'.data.sd.lk (.user B.n) = some t → ∃ f, .client f ∈ s'.stk t ∧ B.hf f) → B.Ok s' := by
        intro h1 h2 h3 h4 h5
        refine ⟨?_, ?_, ?_, ?_⟩
        · intro u f hf
          by_cases hu : u = t
          · subst hu; exact h1 f hf
          · rcases hoth u hu with ⟨h, -⟩ | ⟨-, g, h, hg⟩
            · rw [h] at hf; exact q.cv u f hf
            · rw [h] at hf; simp at hf; subst hf; exact (hT0 hg).1
        · intro u
          by_cases hu : u = t
          · subst hu; exact h2
          · rcases hoth u hu with ⟨h, -⟩ | ⟨-, g, h, hg⟩
            · rw [h]; exact q.chain u
            · rw [h]; exact ⟨B.adj_of (by intro hx; cases hx; exact (hT0 hg).2.1 rfl) (by simp), trivial⟩
        · intro u k rest he hk
          by_cases hu : u = t
          · subst hu; exact h3 k rest he hk
          · rcases hoth u hu with ⟨h, h'⟩ | ⟨-, g, h, hg⟩
            · have hne : s.stk u ≠ [] := by rw [← h, hk]; simp
              rw [h' hne] at he
              rw [h] at hk
              exact q.exc u k rest he hk
            · rw [h] at hk; simp at hk
              exact (hT0 hg).2.2 k hk.1
        · intro u hu'
          by_cases hu : u = t
          · subst hu; exact h5 hu'
          · rcases h4 u hu' with h | h
            · obtain ⟨f, hf, hf'⟩ := q.held u h
              rcases hoth u hu with ⟨h, -⟩ | ⟨h, -⟩
              · exact ⟨f, by rw [h]; exact hf, hf'⟩
              · rw [h] at hf; cases hf
            · exact absurd h hu
      have hq := q.chain t
      have hcv := q.cv t
      cases hm with
      | sync f rest a he hst hS hact had =>
        rw [hst] at hq
        have hf0 := hcv f (by rw [hst]; simp)
        have hto := ss_to hS hf0
        have happ := hS.cont_app
        have hrest : ∀ g, .client g ∈ rest → ncv B.n g := fun g hg => hcv g (by rw [hst]; simp [hg])
        have hlk : ∀ u, s'.data.sd.lk (.user B.n) = some u → s.data.sd.lk (.user B.n) = some u ∨ u = t := by
          intro u hu
          rcases ss_lk hS hf0 hu with ⟨h, -⟩ | ⟨-, -, h⟩
          · exact .inl h
          · exact .inr h
        have hheld : (∀ g, .client g ∈ rest → .client g ∈ s'.stk t) → s'.data.sd.lk (.user B.n) = some t →
            (a = .terminate → s'.stk t = s.stk t) → ∃ f, .client f ∈ s'.stk t ∧ B.hf f := by
          intro hsub hl hterm
          rcases ss_lk hS hf0 hl with ⟨h, hn⟩ | ⟨rfl, -, -⟩
          · obtain ⟨g, hg, hg'⟩ := q.held t h
            rcases hn with hn | hn
            · rw [hst] at hg
              rcases List.mem_cons.1 hg with hg | hg
              · cases hg
                cases f <;> first | exact False.elim hg' | skip
                · exact hS.not_app.elim
                · exact absurd (by rw [show _ = B.n from hg']) hn
              · exact ⟨g, hsub g hg, hg'⟩
            · exact ⟨g, by rw [hterm hn]; exact hg, hg'⟩
          · obtain ⟨k, hk, hk'⟩ := hq.1.1 rfl
            exact ⟨.app k, hsub _ (List.mem_of_mem_head? hk), hk'⟩
        have hlkin : f = .lkIn B.n → ∃ r, a = .ret r := by
          rintro rfl
          generalize s'.data.sd = d' at hS
          cases hS
          exact ⟨_, rfl⟩
        have hfne : (∀ r, a ≠ .ret r) → (.client f : Fr α φ) ≠ .client (.lkIn B.n) := by
          intro h hx; cases hx
          obtain ⟨r, hr⟩ := hlkin rfl
          exact h r hr
        have hnot : ∀ g, a.cont = some g → ∀ k, g ≠ .app k := by
          rintro g hg k rfl; exact happ k hg
        cases a with
        | goto g =>
          obtain ⟨h1, h2, -⟩ := hact
          have hg := hto g (.inl rfl)
          refine key ?_ ?_ ?_ hlk ?_
          · intro g' hg'
            rw [h1] at hg'
            rcases List.mem_cons.1 hg' with h | h
            · cases h; exact hg.1
            · exact hrest _ h
          · rw [h1]; exact ⟨B.adj_rep hq.1 (hfne (by simp)) (by simpa using hg.2), hq.2⟩
          · intro k r h; exact absurd h2 h
          · exact fun h => hheld (fun g hg => by rw [h1]; simp [hg]) h (by simp)
        | push g k =>
          obtain ⟨h1, h2, -⟩ := hact
          have hg := hto g (.inr (.inl ⟨_, rfl⟩))
          have hk := hto k (.inr (.inr (.inl ⟨_, rfl⟩)))
          refine key ?_ ?_ ?_ hlk ?_
          · intro g' hg'
            rw [h1] at hg'
            rcases List.mem_cons.1 hg' with h | h
            · cases h; exact hg.1
            rcases List.mem_cons.1 h with h | h
            · cases h; exact hk.1
            · exact hrest _ h
          · rw [h1]
            refine ⟨B.adj_of (by simpa using hg.2) ?_, B.adj_rep hq.1 (hfne (by simp)) (by simpa using hk.2), hq.2⟩
            intro k' hk'
            simp at hk'
            exact absurd hk' (hnot k rfl k')
          · intro k r h; exact absurd h2 h
          · exact fun h => hheld (fun g hg => by rw [h1]; simp [hg]) h (by simp)
        | call b k =>
          obtain ⟨h1, h2, -⟩ := hact
          have hk := hto k (.inr (.inr (.inr ⟨_, rfl⟩)))
          refine key ?_ ?_ ?_ hlk ?_
          · intro g' hg'
            rw [h1] at hg'
            rcases List.mem_cons.1 hg' with h | h
            · cases h
            rcases List.mem_cons.1 h with h | h
            · cases h; exact hk.1
            · exact hrest _ h
          · rw [h1]
            refine ⟨B.adj_of (by simp) ?_, B.adj_rep hq.1 (hfne (by simp)) (by simpa using hk.2), hq.2⟩
            intro k' hk'
            simp at hk'
            exact absurd hk' (hnot k rfl k')
          · intro k r h; exact absurd h2 h
          · exact fun h => hheld (fun g hg => by rw [h1]; simp [hg]) h (by simp)
        | ret v =>
          obtain ⟨h1, h2, -⟩ := hact
          refine key ?_ ?_ ?_ hlk ?_
          · intro g' hg'; rw [h1] at hg'; exact hrest _ hg'
          · rw [h1]; exact hq.2
          · intro k r h; exact absurd h2 h
          · exact fun h => hheld (fun g hg => by rw [h1]; simp [hg]) h (by simp)
        | throw v =>
          obtain ⟨h1, h2⟩ := hact
          refine key ?_ ?_ ?_ hlk ?_
          · intro g' hg'; rw [h1] at hg'; exact hrest _ hg'
          · rw [h1]; exact hq.2
          · intro k r _ hk hQ
            rw [h1] at hk
            exact hfne (by simp) (hq.1.2 k (by rw [hk]; rfl) hQ)
          · exact fun h => hheld (fun g hg => by rw [h1]; simp [hg]) h (by simp)
        | terminate =>
          obtain ⟨h1, -, h2⟩ := hact
          refine key ?_ ?_ ?_ hlk ?_
          · intro g' hg'; rw [h1] at hg'; exact hcv _ hg'
          · rw [h1]; exact q.chain t
          · intro k r h; exact absurd h2 h
          · exact fun h => hheld (fun g hg => by rw [h1, hst]; simp [hg]) h (fun _ => h1)
      | app g rest a he hst hd hact hA =>
        obtain ⟨ch', hA⟩ := hA
        have happ := B.app hA
        clear hA
        rw [hst] at hq
        have hrest : ∀ g, .client g ∈ rest → ncv B.n g := fun g hg => hcv g (by rw [hst]; simp [hg])
        have hlk : ∀ u, s'.data.sd.lk (.user B.n) = some u → s.data.sd.lk (.user B.n) = some u ∨ u = t := by
          intro u hu; rw [hd] at hu; exact .inl hu
        have hheld : (∀ g, .client g ∈ rest → .client g ∈ s'.stk t) → (B.H g → ∃ f, .client f ∈ s'.stk t ∧ B.hf f) →
            s'.data.sd.lk (.user B.n) = some t → ∃ f, .client f ∈ s'.stk t ∧ B.hf f := by
          intro hsub h hl
          rw [hd] at hl
          obtain ⟨f, hf, hf'⟩ := q.held t hl
          rw [hst] at hf
          rcases List.mem_cons.1 hf with hf | hf
          · cases hf; exact h hf'
          · exact ⟨f, hsub f hf, hf'⟩
        cases a with
        | goto g' =>
          obtain ⟨h1, h2, -⟩ := hact
          refine key ?_ ?_ ?_ hlk (hheld (fun g hg => by rw [h1]; simp [hg]) (fun h => ⟨.app g', by rw [h1]; simp, happ h⟩))
          · intro x hx
            rw [h1] at hx
            rcases List.mem_cons.1 hx with h | h
            · cases h; trivial
            · exact hrest _ h
          · rw [h1]; exact ⟨B.adj_rep hq.1 (by simp) (by simp), hq.2⟩
          · intro k r h; exact absurd h2 h
        | push g' k =>
          obtain ⟨h1, h2, -⟩ := hact
          refine key ?_ ?_ ?_ hlk (hheld (fun g hg => by rw [h1]; simp [hg]) (fun h => ⟨.app k, by rw [h1]; simp, happ.2 h⟩))
          · intro x hx
            rw [h1] at hx
            rcases List.mem_cons.1 hx with h | h
            · cases h; trivial
            rcases List.mem_cons.1 h with h | h
            · cases h; trivial
            · exact hrest _ h
          · rw [h1]
            refine ⟨B.adj_of (by simp) ?_, B.adj_rep hq.1 (by simp) (by simp), hq.2⟩
            intro k' hk'; simp at hk'; subst hk'; exact happ.1
          · intro k r h; exact absurd h2 h
        | core a k =>
          obtain ⟨h1, h2, -⟩ := hact
          refine key ?_ ?_ ?_ hlk (hheld (fun g hg => by rw [h1]; simp [hg]) (fun h => ⟨.app k, by rw [h1]; simp, happ.2 h⟩))
          · intro x hx
            rw [h1] at hx
            rcases List.mem_cons.1 hx with h | h
            · cases h
            rcases List.mem_cons.1 h with h | h
            · cases h; trivial
            · exact hrest _ h
          · rw [h1]
            refine ⟨B.adj_of (by simp) ?_, B.adj_rep hq.1 (by simp) (by simp), hq.2⟩
            intro k' hk'; simp at hk'; subst hk'; exact happ.1
          · intro k r h; exact absurd h2 h
        | sync a k =>
          obtain ⟨h1, h2, -⟩ := hact
          obtain ⟨a1, a2, a3, a4⟩ := happ
          refine key ?_ ?_ ?_ hlk (hheld (fun g hg => by rw [h1]; simp [hg]) (fun h => ?_))
          · intro x hx
            rw [h1] at hx
            rcases List.mem_cons.1 hx with h | h
            · cases h; cases a <;> first | trivial | exact a1
            rcases List.mem_cons.1 h with h | h
            · cases h; trivial
            · exact hrest _ h
          · rw [h1]
            refine ⟨⟨?_, ?_⟩, B.adj_rep hq.1 (by simp) (by simp), hq.2⟩
            · intro hx
              refine ⟨k, rfl, a3 ?_⟩
              cases a <;> simp [SApi.entry] at hx
              rw [hx]
            · intro k' hk' hQ
              simp at hk'; subst hk'
              rw [a2 hQ]; rfl
          · intro k r h; exact absurd h2 h
          · rcases a4 h with h | rfl
            · exact ⟨.app k, by rw [h1]; simp, h⟩
            · exact ⟨.lkUn B.n, by rw [h1]; simp [SApi.entry], rfl⟩
        | ret v =>
          obtain ⟨h1, h2, -⟩ := hact
          refine key ?_ ?_ ?_ hlk (hheld (fun g hg => by rw [h1]; simp [hg]) (fun h => absurd h happ))
          · intro g' hg'; rw [h1] at hg'; exact hrest _ hg'
          · rw [h1]; exact hq.2
          · intro k r h; exact absurd h2 h
        | throw v =>
          obtain ⟨h1, h2⟩ := hact
          refine key ?_ ?_ ?_ hlk (hheld (fun g hg => by rw [h1]; simp [hg]) (fun h => absurd h happ))
          · intro g' hg'; rw [h1] at hg'; exact hrest _ hg'
          · rw [h1]; exact hq.2
          · intro k r _ hk hQ
            rw [h1] at hk
            have := hq.1.2 k (by rw [hk]; rfl) hQ
            simp at this
        | terminate =>
          obtain ⟨h1, -, h2⟩ := hact
          refine key ?_ ?_ ?_ hlk (hheld (fun g hg => by rw [h1, hst]; simp [hg]) (fun h => ⟨.app g, by rw [h1, hst]; simp, h⟩))
          · intro g' hg'; rw [h1] at hg'; exact hcv _ hg'
          · rw [h1]; exact q.chain t
          · intro k r h; exact absurd h2 h
      | hand e f f' rest he hst hn hf hst' he' hd had =>
        rw [hst] at hq
        have hrest : ∀ g, .client g ∈ rest → ncv B.n g := fun g hg => hcv g (by rw [hst]; simp [hg])
        have hf2 : ncv B.n f' ∧ f' ≠ .lkIn B.n ∧ f ≠ .lkIn B.n := by
          cases f <;> simp only [sThrow, Option.some.injEq, Option.map_eq_some_iff, reduceCtorEq] at hf <;>
            first | (subst hf; exact ⟨trivial, by simp, by simp⟩) | (obtain ⟨g, -, rfl⟩ := hf; exact ⟨trivial, by simp, by simp⟩)
        refine key ?_ ?_ ?_ (by rw [hd]; exact fun u h => .inl h) ?_
        · intro x hx
          rw [hst'] at hx
          rcases List.mem_cons.1 hx with h | h
          · cases h; exact hf2.1
          · exact hrest _ h
        · rw [hst']; exact ⟨B.adj_rep hq.1 (by simpa using hf2.2.2) (by simpa using hf2.2.1), hq.2⟩
        · intro k r h; exact absurd he' h
        · intro hl
          rw [hd] at hl
          obtain ⟨x, hx, hx'⟩ := q.held t hl
          rw [hst] at hx
          rcases List.mem_cons.1 hx with h | h
          · cases h
            cases f <;> first | exact False.elim hx' | skip
            · rename_i k
              obtain ⟨k', h1, h2⟩ := B.throw e hx' (q.exc t k rest (by rw [he]; simp) hst)
              simp only [sThrow, h1, Option.map_some, Option.some.injEq] at hf
              subst hf
              exact ⟨.app k', by rw [hst']; simp, h2⟩
            · simp [sThrow] at hf
          · exact ⟨x, by rw [hst']; simp [h], hx'⟩
      | drop e f rest he hst hn hf hst' he' hd had =>
        rw [hst] at hq
        refine key ?_ ?_ ?_ (by rw [hd]; exact fun u h => .inl h) ?_
        · intro x hx; rw [hst'] at hx; exact hcv x (by rw [hst]; simp [hx])
        · rw [hst']; exact hq.2
        · intro k r _ hk hQ
          rw [hst'] at hk
          have := hq.1.2 k (by rw [hk]; rfl) hQ
          cases this
          exact hn trivial
        · intro hl
          rw [hd] at hl
          obtain ⟨x, hx, hx'⟩ := q.held t hl
          rw [hst] at hx
          rcases List.mem_cons.1 hx with h | h
          · cases h
            cases f <;> first | exact False.elim hx' | skip
            · rename_i k
              obtain ⟨k', h1, h2⟩ := B.throw e hx' (q.exc t k rest (by rw [he]; simp) hst)
              simp [sThrow, h1] at hf
            · exact absurd trivial hn
          · exact ⟨x, by rw [hst']; exact h, hx'⟩
      | core f rest pre hst hpre hst' hd had =>
        rw [hst] at hq
        refine key ?_ ?_ ?_ (by rw [hd]; exact fun u h => .inl h) ?_
        · intro x hx
          rw [hst'] at hx
          rcases List.mem_append.1 hx with h | h
          · exact (hT0 (hpre x h)).1
          · exact hcv x (by rw [hst]; simp [h])
        · rw [hst']
          refine B.chain_pre (by simp) hq ?_
          intro g hg
          cases g with
          | core g => exact ⟨by simp, by simp⟩
          | client g =>
            have := hT0 (hpre g hg)
            exact ⟨by simpa using this.2.1, fun k hk => this.2.2 k (by simpa using hk)⟩
        · intro k r _ hk hQ
          rw [hst'] at hk
          cases pre with
          | nil =>
            have := hq.1.2 k (by rw [show rest = _ from hk]; rfl) hQ
            cases this
          | cons g pre =>
            simp at hk
            obtain ⟨rfl, -⟩ := hk
            exact (hT0 (hpre _ (by simp))).2.2 k rfl hQ
        · intro hl
          rw [hd] at hl
          obtain ⟨x, hx, hx'⟩ := q.held t hl
          rw [hst] at hx
          rcases List.mem_cons.1 hx with h | h
          · cases h
          · exact ⟨x, by rw [hst']; simp [h], hx'⟩
      | still hst' he' hd had =>
        refine key ?_ ?_ ?_ (by rw [hd]; exact fun u h => .inl h) ?_
        · intro x hx; rw [hst'] at hx; exact hcv x hx
        · rw [hst']; exact hq
        · intro k r h hk
          rw [hst'] at hk
          rcases he' with he' | he'
          · rw [he'] at h; exact q.exc t k r h hk
          · rw [he'] at hk; cases hk
        · intro hl; rw [hd] at hl; rw [hst']; exact q.held t hl

end AH
end
end Sync
end Itc
