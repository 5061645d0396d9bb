import Verif.Pool.Inv
import Verif.Sync.AppMem

/-!
# Thread pool: the invariant of jobs and handles (proof infrastructure, no claims)
-/
namespace Itc
namespace Pool
open Core Sync
section
variable {α φ δ χ : Type} {U : PApp α φ δ χ} {u0 : δ} {f0 : φ}

/-- Frames entered from outside of the pool code. -/
def entF : PFrame α φ → Prop
  | .usr _ => True
  | .wkIn => True
  | .inRun _ _ => True
  | .inDtor _ _ => True
  | .ckIn _ => True
  | .ckDtor => True
  | _ => False

theorem ent (U : PApp α φ δ χ) : Entry (poolApp U) entF where
  run a := by cases a <;> trivial
  destroy a := by cases a <;> trivial
  code hs := code_z (fun _ => trivial) trivial hs

theorem set_imp {β : Type} (f : Nat → β) (i j : Nat) (x : β) : Sync.set f i x j = if j = i then x else f j := by simp [Sync.set]

theorem pk_empty {t i L id : Nat} {d d' : PData α δ} {c : Option (Call α)} (h : PK t d i L d' id c) {j : Nat} (hj : (d.imp j).jobs = []) :
    (d'.imp j).jobs = [] := by
  cases h <;> simp only [PData.ev, PData.upd, set_imp] <;> first | exact hj | skip
  · split
    · rename_i e; subst e; exact hj
    · exact hj
  · split
    · rename_i e; subst e; simp [modJob, hj]
    · exact hj

theorem ps_empty {v : View} {d d' : PData α δ} {rv : Val} {f : PFrame α φ} {a : SAct (PTask α) (PFrame α φ)} (h : PS v d rv f d' a) {j : Nat}
    (hf : ∀ h g c, f ≠ .ajIn j h g c) (hj : (d.imp j).jobs = []) : (d'.imp j).jobs = [] := by
  cases h <;> (try subst_vars) <;> first | exact hj | skip
  all_goals (try simp only [PData.ev, PData.upd, eraseJob, chgJob, insJob, addH, set_imp]) <;> first | exact hj | skip
  case ajIn i h g c =>
    have : j ≠ i := by rintro rfl; exact hf _ _ _ rfl
    simp only [this, if_false]; exact hj
  case wtEnd i k dn => cases dn <;> exact hj
  case wtGo i k dn p l => cases dn <;> exact hj
  all_goals (split <;> first | exact hj | rfl | (rename_i e; subst e; simp [modJob, erase, hj, set_imp]; done))

/-- While clear_all destroys the jobs, `jobs_` is empty. -/
theorem ca_empty {s : PSt α φ δ} (h : PR U u0 f0 s) : ∀ {t i o l K}, .client (.app (.caLoop i o l K)) ∈ s.stk t → (s.data.ad.imp i).jobs = [] := by
  refine Reach.induct (fun s => ∀ {t i o l K}, .client (.app (.caLoop i o l K)) ∈ s.stk t → (s.data.ad.imp i).jobs = []) ?_ ?_ h
  · intro t i o l K hm; rfl
  · intro s l s' hr q hs u i o l' K hm
    cases l with
    | tick n => rw [step_tick _ s s' n hs] at hm ⊢; exact q hm
    | th t ch =>
      rcases (ent U).mem hr hs hm with hm0 | ⟨h, -⟩ | ⟨-, h⟩ | ⟨rfl, f, rest, a, ch', he, hst, hA, hk⟩ | ⟨rfl, f, e, rest, hst, hk, had⟩
      · have hq := q hm0
        cases mv hr hs with
        | app g rest a he hst hd hact hA =>
          obtain ⟨ch', hA⟩ := hA
          generalize s'.data.ad = ad' at hA ⊢
          cases pool_pc hA with
          | usr g ch u wa hU => exact hq
          | ck x d' id c hP => exact pk_empty hP hq
          | ps f d' a hf hb hP =>
            refine ps_empty hP ?_ hq
            rintro h g c rfl
            refine sec_excl hr hst he (g := .caLoop i o l' K) (u := u) rfl rfl hm0 ?_
            rintro rfl
            rw [hst] at hm0
            rcases List.mem_cons.1 hm0 with h | h
            · cases h
            · exact h
        | sync f rest a he hst hS hact had => rw [had]; exact hq
        | hand e f f' rest he hst hn hf hst' he' hd had => rw [had]; exact hq
        | drop e f rest he hst hn hf hst' he' hd had => rw [had]; exact hq
        | core f rest pre hst hpre hst' hd had => rw [had]; exact hq
        | still hst' he' hd had => rw [had]; exact hq
      · exact h.elim
      · exact h.elim
      · have hmem : ∀ {f}, s.stk u = .client (.app f) :: rest → .client (.app f) ∈ s.stk u := fun h => by rw [h]; simp
        generalize s'.data.ad = ad' at hA ⊢
        cases pool_pc hA with
        | usr g ch u wa hU =>
          exfalso
          clear hA hU
          have hl := liftP_cases wa
          generalize liftP wa = y at hl hk
          cases hl <;> simp [liftAct, Act.cont] at hk
          rename_i b k
          cases b <;> simp [PApi.entry] at hk
        | ck x d' id c hP => simp [liftAct, Act.cont] at hk
        | ps f d' a hf hb hP =>
          cases hP <;> simp [liftAct, Act.cont] at hk
          case caIn => obtain ⟨rfl, -⟩ := hk; simp [PData.upd, set_imp]
          case caLoop => obtain ⟨rfl, -⟩ := hk; exact q (hmem hst)
      · rcases pool_throw hk with ⟨g, g', rfl, h⟩ | ⟨i, l, c, K, rfl, h⟩ | ⟨i, o, K, rfl, h⟩ | ⟨i, o, l, K, rfl, h⟩ <;> cases h

theorem top_ge {L : Nat} {q : List Hd} {k : Nat} {h : Hd} (ht : isTop L q k = true) (hk : q[k]? = some h) :
    L ≤ h.g.lvl ∧ ∀ x ∈ q, L ≤ x.g.lvl → x.g.le h.g := by
  unfold isTop at ht
  rw [hk] at ht
  simp only [Bool.and_eq_true, decide_eq_true_eq, List.all_eq_true] at ht
  exact ht

/-- The jobs and handles of every pool agree with the log. -/
theorem ji {s : PSt α φ δ} (h : PR U u0 f0 s) : ∀ i, JI (s.data.ad.imp i) s.data.ad.plog i := by
  refine data_ind (fun ad => ∀ i, JI (ad.imp i) ad.plog i) ?_ ?_ h
  · intro i
    exact ⟨Nat.le_refl _, by simp [schedIds], by simp [schedIds], rfl, by simp, by simp, by simp [takenIds, cutIds], by simp [goneIds],
      by simp [takenIds], by simp [cutIds], by simp [goneIds], by simp, by simp⟩
  · intro s t ch f rest ad' a hr q he hst hA j
    have qj := q j
    have ty := tyF hr (t := t) (f := f) (by rw [hst]; simp)
    have hq : ∀ {e : PEv α}, quiet j e → JI (s.data.ad.imp j) (e :: s.data.ad.plog) j := fun h => qj.quiet h
    cases pool_pc hA with
    | usr g ch u wa hU => exact qj
    | ck x d' id c hP =>
      show JI (d'.imp j) d'.plog j
      cases hP with
      | idle he => exact hq trivial
      | skip k h id ht hk hn =>
        simp only [PData.ev, PData.upd, set_imp]
        split
        · rename_i e; subst e
          refine JI.quiet (e := .skipped _ _ _ _) trivial (qj.skip hk ?_)
          rintro j0 hj0 hc rfl
          obtain ⟨h1, -⟩ := top_ge ht hk
          have : findJob (s.data.ad.imp x.i).jobs j0.id = some j0 := by
            cases hf : findJob (s.data.ad.imp x.i).jobs j0.id with
            | none =>
              have := List.find?_eq_none.1 hf j0 hj0
              simp at this
            | some j1 => obtain ⟨h2, h3⟩ := findJob_mem hf; rw [qj.uniq h2 hj0 h3]
          rcases hn _ this with h | h
          · exact h h1
          · rw [h] at hc; cases hc
        · exact hq trivial
      | took k h j0 c ht hk hj hL hc =>
        simp only [PData.ev, PData.upd, set_imp]
        obtain ⟨h1, h2⟩ := findJob_mem hj
        split
        · rename_i e; subst e
          rw [← h2]
          exact qj.took _ _ hk j0 h1 h2 c (by simp [hc])
        · rename_i e; exact hq (Ne.symm e)
    | ps f d' a hf hb hP =>
      cases hP <;> (try subst_vars) <;> first | exact qj | exact hq trivial | skip
      all_goals (try simp only [PData.ev, PData.upd, eraseJob, chgJob, insJob, addH, set_imp])
      case newIn h ws hn =>
        split
        · rename_i e; subst e
          rw [← (tyI hr).fresh s.data.ad.nimp (Nat.le_refl _)]; exact qj
        · exact qj
      case newId i h l n ws id hv =>
        split
        · rename_i e; subst e; exact JI.quiet (e := .worker _ _ _ _ _) trivial (qj.wk _)
        · exact hq trivial
      case ajIn i h g c =>
        split
        · rename_i e; subst e
          simp only [if_true]
          exact qj.sched _ g c
        · rename_i e; exact hq (Ne.symm e)
      case cpBody i id g j0 c hj hc hg =>
        obtain ⟨h1, h2⟩ := findJob_mem hj
        split
        · rename_i e; subst e
          simp only [if_true]
          exact qj.change _ id g j0 h1 h2
        · rename_i e; exact hq (Ne.symm e)
      case stop i id j0 c hj hc =>
        obtain ⟨h1, h2⟩ := findJob_mem hj
        split
        · rename_i e; subst e
          exact qj.stop _ id c j0 h1 h2 (by simp [hc])
        · rename_i e; exact hq (Ne.symm e)
      case clNo i id c hn =>
        by_cases e : j = i
        · subst e
          have := qj.done t id (.done t j id c) (.inl ⟨c, rfl⟩) (by
            obtain ⟨t', L, h, hm⟩ := ty.2 c rfl
            exact List.mem_filterMap.2 ⟨_, hm, by simp [PEv.takenId]⟩)
          rw [erase_none hn] at this
          exact this
        · exact hq (Ne.symm e)
      case clJob i id c j0 hj hc =>
        split
        · rename_i e; subst e
          exact qj.done _ id _ (.inl ⟨c, rfl⟩) (by
            obtain ⟨t', L, h, hm⟩ := ty.2 c rfl
            exact List.mem_filterMap.2 ⟨_, hm, by simp [PEv.takenId]⟩)
        · rename_i e; exact hq (Ne.symm e)
      case clDrop i id c j0 c' hj hc =>
        split
        · rename_i e; subst e
          exact qj.done _ id _ (.inl ⟨c, rfl⟩) (by
            obtain ⟨t', L, h, hm⟩ := ty.2 c rfl
            exact List.mem_filterMap.2 ⟨_, hm, by simp [PEv.takenId]⟩)
        · rename_i e; exact hq (Ne.symm e)
      case caIn i K =>
        split
        · rename_i e; subst e; exact JI.drop _ _ _ _ rfl qj
        · rename_i e
          clear hA
          generalize (s.data.ad.imp i).jobs = jl
          induction jl with
          | nil => exact qj
          | cons x jl ih =>
            refine JI.quiet (e := match x.call with | some c => PEv.discarded _ i x.id c | none => PEv.forgot _ i x.id) ?_ ih
            cases x.call <;> exact Ne.symm e
      case caEnd i o K =>
        split
        · rename_i e; subst e
          have hn := ca_empty hr (t := t) (i := j) (o := o) (l := []) (K := K) (by rw [hst]; simp)
          exact ⟨qj.free, qj.ids, qj.nod, qj.jobs, qj.cur, qj.call, qj.cuts, qj.tk, qj.tks, qj.cg, qj.gs, by simp, by rw [hn]; simp⟩
        · exact qj
      case diIn i K =>
        split
        · rename_i e; subst e; exact JI.quiet (e := .parted _ _) trivial (qj.wk _)
        · exact hq trivial
      case wtEnd i k dn =>
        cases dn with
        | nil => exact hq trivial
        | cons p dn => exact JI.quiet (e := .waitRet _ _ _ _) trivial (hq (e := .waited _ _ _ _ _ _) trivial)
      case wtGo i k dn p l =>
        cases dn with
        | nil => exact qj
        | cons p dn => exact hq (e := .waited _ _ _ _ _ _) trivial
end
end Pool
end Itc
