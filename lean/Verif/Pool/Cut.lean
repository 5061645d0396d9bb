import Verif.Pool.Over
import Verif.Sync.AGo

/-!
# Thread pool: jobs that are erased before a worker takes them (proof infrastructure, no claims)
-/
namespace Itc
namespace Pool
open Core Sync
section
variable {α φ δ χ : Type} {U : PApp α φ δ χ} {u0 : δ} {f0 : φ} {s s' : PSt α φ δ}

/-- Thread `t` erases the job before a worker took the callable. -/
def CutBy (ad : PData α δ) (t i id : Nat) (c : Call α) : Prop := .stopped t i id c ∈ ad.plog ∨ .discarded t i id c ∈ ad.plog

/-- Code that has still to destroy the callable `c`, or whose callee is doing so. -/
def CutF (i : Nat) (c : Call α) : PFrame α φ → Prop
  | .clUnl j o .stop => j = i ∧ o = some c
  | .caLoop j o l _ => j = i ∧ (o = some c ∨ c ∈ l)
  | _ => False

def caNone : PFrame α φ → Prop
  | .caLoop _ none _ _ => True
  | _ => False

theorem ca_go (U : PApp α φ δ χ) (f0 : φ) : AG (poolApp U) (.usr f0) caNone where
  e0 h := h
  entry := {
    run a := by cases a <;> exact id
    destroy a := by cases a <;> exact id
    code hs := code_z (F := fun g => ¬ caNone g) (fun _ => id) id hs }
  throw h := by
    rcases pool_throw h with ⟨g, g', rfl, rfl⟩ | ⟨i, l, c, K, rfl, rfl⟩ | ⟨i, o, K, rfl, rfl⟩ | ⟨i, o, l, K, rfl, rfl⟩ <;> exact id
  push {v ad f rv ch ad' g k} hs := by
    generalize hx : (SAct.push g k : SAct (PTask α) (PFrame α φ)) = x at hs
    cases pool_pc hs with
    | usr g ch u wa hU =>
      have hl := liftP_cases wa
      clear hs hU
      rw [← hx] at hl
      generalize hy : (SAct.push _ k : SAct (PTask α) (PFrame α φ)) = y at hl
      cases hl <;> first | (cases hy; done) | skip
      · cases hy; exact ⟨id, id⟩
      · cases hy; rename_i a _; cases a <;> exact ⟨id, id⟩
    | ck => cases hx
    | ps f d' a' hf hb hP => cases hP <;> cases hx
  core {v ad f rv ch ad' a k} hs := by
    generalize hx : (SAct.core a k : SAct (PTask α) (PFrame α φ)) = x at hs
    cases pool_pc hs with
    | usr g ch u wa hU =>
      have hl := liftP_cases wa
      clear hs hU
      rw [← hx] at hl
      generalize hy : (SAct.core _ k : SAct (PTask α) (PFrame α φ)) = y at hl
      cases hl <;> first | (cases hy; done) | skip
      cases hy; exact id
    | ck => cases hx
    | ps f d' a' hf hb hP => cases hP <;> first | (cases hx; done) | (cases hx; exact id)
  sync {v ad f rv ch ad' a k} hs := by
    generalize hx : (SAct.sync a k : SAct (PTask α) (PFrame α φ)) = x at hs
    cases pool_pc hs with
    | usr g ch u wa hU =>
      have hl := liftP_cases wa
      clear hs hU
      rw [← hx] at hl
      generalize hy : (SAct.sync _ k : SAct (PTask α) (PFrame α φ)) = y at hl
      cases hl <;> first | (cases hy; done) | skip
      cases hy; exact id
    | ck => cases hx
    | ps f d' a' hf hb hP => cases hP <;> first | (cases hx; done) | (cases hx; exact id)

/-- At such a frame no exception arrives. -/
theorem cutF_exc (hr : PR U u0 f0 s) {t i : Nat} {c : Call α} {f : PFrame α φ} {rest : List (Fr (PTask α) (PFrame α φ))} (hst : s.stk t = .client (.app f) :: rest)
    (hf : CutF i c f) : (s.thr t).exc = none := by
  cases f <;> first | exact hf.elim | skip
  case clUnl j o K => cases K <;> first | exact hf.elim | (obtain ⟨-, rfl⟩ := hf; exact (k_ready hr hst rfl).2)
  case caLoop j o l K =>
    cases o with
    | none => exact ((ca_go U f0).ok hr (pre := []) hst trivial).2
    | some c => exact (k_ready hr hst rfl).2

/-- A step of the pool that erases a job. -/
theorem cut_new {v : View} {ad ad' : PData α δ} {f : PFrame α φ} {rv : Val} {ch : Ch (PCh χ)} {a : SAct (PTask α) (PFrame α φ)}
    (hA : (poolApp U).step v ad f rv ch = some (ad', a)) {t i id : Nat} {c : Call α} (h : CutBy ad' t i id c) (hn : ¬ CutBy ad t i id c) :
    t = v.tid ∧ ((∃ b k, a = .sync b k ∧ CutF i c k) ∨ ∃ k, a = .goto k ∧ CutF i c k) := by
  have old : (∀ e ∈ ad'.plog, e ∈ ad.plog ∨ ((∀ t i id c, e ≠ .stopped t i id c) ∧ ∀ t i id c, e ≠ .discarded t i id c)) → False := by
    intro ho
    refine hn (h.imp ?_ ?_) <;> intro h <;> rcases ho _ h with h | ⟨h1, h2⟩
    · exact h
    · exact absurd rfl (h1 _ _ _ _)
    · exact h
    · exact absurd rfl (h2 _ _ _ _)
  cases pool_pc hA with
  | usr g ch u wa hU => exact (old fun e he => .inl he).elim
  | ck x d' id c hP =>
    refine (old fun e he => ?_).elim
    cases hP <;> (rcases List.mem_cons.1 he with rfl | he; exacts [.inr ⟨by simp, by simp⟩, .inl he])
  | ps f d' a hf hb hP =>
    cases hP
    case stop i' id' j c' hj hc =>
      rcases h with h | h
      · rcases List.mem_cons.1 h with h | h
        · cases h; exact ⟨rfl, .inl ⟨_, _, rfl, rfl, rfl⟩⟩
        · exact absurd (.inl h) hn
      · rcases List.mem_cons.1 h with h | h
        · cases h
        · exact absurd (.inr h) hn
    case caIn i' K =>
      rcases h with h | h
      · rcases List.mem_append.1 h with h | h
        · obtain ⟨j, -, h⟩ := dropEvs_mem.1 h
          split at h <;> cases h
        · exact absurd (.inl h) hn
      · rcases List.mem_append.1 h with h | h
        · obtain ⟨j, hj, h⟩ := dropEvs_mem.1 h
          split at h <;> cases h
          exact ⟨rfl, .inr ⟨_, rfl, rfl, .inr (List.mem_filterMap.2 ⟨j, hj, by assumption⟩)⟩⟩
        · exact absurd (.inr h) hn
    case wtEnd i k dn =>
      refine (old fun e he => ?_).elim
      rcases List.mem_cons.1 he with rfl | he
      · exact .inr ⟨by simp, by simp⟩
      · rw [waitEv_log] at he
        cases dn with
        | nil => exact .inl he
        | cons p dn => rcases List.mem_cons.1 he with rfl | he; exacts [.inr ⟨by simp, by simp⟩, .inl he]
    case wtGo i k dn p l =>
      refine (old fun e he => ?_).elim
      rw [waitEv_log] at he
      cases dn with
      | nil => exact .inl he
      | cons p dn => rcases List.mem_cons.1 he with rfl | he; exacts [.inr ⟨by simp, by simp⟩, .inl he]
    all_goals first
      | exact (old fun e he => .inl he).elim
      | (refine (old fun e he => ?_).elim; rcases List.mem_cons.1 he with rfl | he; exacts [.inr ⟨by simp, by simp⟩, .inl he])
      | (subst_vars; exact (old fun e he => .inl he).elim)
      | (subst_vars; refine (old fun e he => ?_).elim; rcases List.mem_cons.1 he with rfl | he; exacts [.inr ⟨by simp, by simp⟩, .inl he])

/-- The callable of an erased job is destroyed before the call that erases it returns. -/
theorem cut_over (hr : PR U u0 f0 s) : ∀ t i id c, CutBy s.data.ad t i id c → rdy s.data.sd c.p ∨ ∃ f, .client (.app f) ∈ s.stk t ∧ CutF i c f := by
  refine Reach.induct (fun s : PSt α φ δ => ∀ t i id c, CutBy s.data.ad t i id c → rdy s.data.sd c.p ∨ ∃ f, .client (.app f) ∈ s.stk t ∧ CutF i c f) ?_ ?_ hr
  · intro t i id c h; rcases h with h | h <;> cases h
  · intro s l s' hr q hs t i id c h
    have hext := step_ext hs
    cases l with
    | tick n => rw [step_tick _ s s' n hs] at h ⊢; exact q t i id c h
    | th u ch =>
      by_cases hn : CutBy s.data.ad t i id c
      · rcases q t i id c hn with h1 | ⟨f, h1, h2⟩
        · exact .inl (rdy_mono hext h1)
        by_cases hu : t = u
        · subst hu
          have low : ∀ top r0 new, s.stk t = top :: r0 → s'.stk t = new ++ r0 → top ≠ .client (.app f) → .client (.app f) ∈ s'.stk t := by
            intro top r0 new h3 h4 h5
            rw [h3] at h1
            rw [h4]
            rcases List.mem_cons.1 h1 with h1 | h1
            · exact absurd h1.symm h5
            · simp [h1]
          cases mv hr hs with
          | sync g r0 a he hst hS hact had =>
            have hg : (.client g : Fr (PTask α) (PFrame α φ)) ≠ .client (.app f) := by rintro e; cases e; exact SS.not_app hS
            refine .inr ⟨f, ?_, h2⟩
            cases a with
            | goto x => exact low _ _ [_] hst hact.1 hg
            | push x y => exact low _ _ [_, _] hst hact.1 hg
            | call a y => exact low _ _ [_, _] hst hact.1 hg
            | ret v => exact low _ _ [] hst hact.1 hg
            | throw v => exact low _ _ [] hst hact.1 hg
            | terminate => rw [hact.1]; exact h1
          | app g r0 a he hst hd hact hA =>
            by_cases hg : (.client (.app g) : Fr (PTask α) (PFrame α φ)) = .client (.app f)
            · cases hg
              obtain ⟨ch', hA⟩ := hA
              clear h
              generalize s'.data.ad = ad' at hA
              cases pool_pc hA with
              | usr g ch u wa hU => exact h2.elim
              | ck => exact h2.elim
              | ps f d' a hf hb hP =>
                clear hA
                cases hP <;> first | exact h2.elim | skip
                case bad => exact .inr ⟨_, by rw [hact.1]; exact h1, h2⟩
                case clUnl j o K =>
                  cases K <;> first | exact h2.elim | skip
                  obtain ⟨rfl, rfl⟩ := h2
                  have := (k_ready hr hst rfl).1
                  exact .inl (rdy_mono hext ⟨ready_lt hr this, this⟩)
                case caLoop j o c' l K =>
                  obtain ⟨rfl, h2⟩ := h2
                  rcases h2 with rfl | h2
                  · have := (k_ready hr hst rfl).1
                    exact .inl (rdy_mono hext ⟨ready_lt hr this, this⟩)
                  · refine .inr ⟨.caLoop j (some c') l K, by rw [hact.1]; exact List.mem_cons_of_mem _ List.mem_cons_self, rfl, ?_⟩
                    rcases List.mem_cons.1 h2 with rfl | h2
                    · exact .inl rfl
                    · exact .inr h2
                case caEnd j o K =>
                  obtain ⟨rfl, h2⟩ := h2
                  rcases h2 with rfl | h2
                  · have := (k_ready hr hst rfl).1
                    exact .inl (rdy_mono hext ⟨ready_lt hr this, this⟩)
                  · cases h2
            · refine .inr ⟨f, ?_, h2⟩
              cases a with
              | goto x => exact low _ _ [_] hst hact.1 hg
              | push x y => exact low _ _ [_, _] hst hact.1 hg
              | core a y => exact low _ _ [_, _] hst hact.1 hg
              | sync a y => exact low _ _ [_, _] hst hact.1 hg
              | ret v => exact low _ _ [] hst hact.1 hg
              | throw v => exact low _ _ [] hst hact.1 hg
              | terminate => rw [hact.1]; exact h1
          | hand e g g' r0 he hst hn' hf hst' he' hd had =>
            refine .inr ⟨f, low _ _ [_] hst hst' ?_, h2⟩
            rintro e; cases e
            have := cutF_exc hr hst h2
            rw [he] at this; cases this
          | drop e g r0 he hst hn' hf hst' he' hd had =>
            refine .inr ⟨f, low _ _ [] hst hst' ?_, h2⟩
            rintro e; cases e
            have := cutF_exc hr hst h2
            rw [he] at this; cases this
          | core g r0 pre hst hpre hst' hd had => exact .inr ⟨f, low _ _ pre hst hst' (by simp), h2⟩
          | still hst' he' hd had => exact .inr ⟨f, by rw [hst']; exact h1, h2⟩
        · rcases mv_oth hr hs hu with ⟨h3, -⟩ | ⟨h3, -⟩
          · exact .inr ⟨f, by rw [h3]; exact h1, h2⟩
          · rw [h3] at h1; cases h1
      · cases mv hr hs with
        | app g r0 a he hst hd hact hA =>
          obtain ⟨ch', hA⟩ := hA
          obtain ⟨hv, h1⟩ := cut_new hA h hn
          obtain rfl : t = u := hv
          refine .inr ?_
          rcases h1 with ⟨b, k, rfl, h1⟩ | ⟨k, rfl, h1⟩
          · exact ⟨k, by rw [show s'.stk t = _ from hact.1]; exact List.mem_cons_of_mem _ List.mem_cons_self, h1⟩
          · exact ⟨k, by rw [show s'.stk t = _ from hact.1]; exact List.mem_cons_self, h1⟩
        | sync f rest a he hst hS hact had => rw [had] at h; exact absurd h hn
        | hand e f f' rest he hst hn hf hst' he' hd had => rw [had] at h; contradiction
        | drop e f rest he hst hn hf hst' he' hd had => rw [had] at h; contradiction
        | core f rest pre hst hpre hst' hd had => rw [had] at h; contradiction
        | still hst' he' hd had => rw [had] at h; contradiction

end
end Pool
end Itc
