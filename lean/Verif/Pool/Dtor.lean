import Verif.Core.Gone
import Verif.Pool.Idle
import Verif.Pool.Call
import Verif.Pool.Runs

/-!
# The destructor of a pool (proof infrastructure, no claims)
-/
namespace Itc
namespace Pool
open Core Sync
section
variable {α φ δ χ : Type} {U : PApp α φ δ χ} {u0 : δ} {f0 : φ} {s s' s0 : PSt α φ δ}

/-! ## The workers are moved out once -/

def ePt (i : Nat) : PEv α → Nat
  | .parted _ i' => b1 (i' = i)
  | _ => 0

def kPt (i j : Nat) : SK → Nat
  | .dtor _ => b1 (j = i)
  | _ => 0

/-- Every pool is destroyed at most once. -/
def aPart (i : Nat) : PL α φ δ where
  o := 1
  u := 0
  ou := rfl
  w _ := 0
  g
    | .caIn j K => kPt i j K
    | .caLoop j _ _ K => kPt i j K
    | .caFin j K => kPt i j K
    | .diIn j _ => b1 (j = i)
    | _ => 0
  out d := lsum (ePt i) d.plog
  inn d := b1 (d.dying i = true)
  w_usr _ := rfl
  g_z f h := by cases f <;> first | rfl | exact h.elim
  g_entry a := by cases a <;> rfl
  out_u _ _ := rfl
  inn_u _ _ := rfl
  start _ := Nat.zero_le _

local macro "ps" L:ident : tactic => `(tactic| (
  simp only [AW.sa, AW.sapi, AW.api, PL.aw, $L:ident, PData.upd, PData.ev, PData.close, addH, insJob, chgJob, eraseJob, lsum_cons, lsum_append, ePt, kPt,
    Nat.add_zero, Nat.zero_add, Nat.mul_zero, Nat.le_refl, Nat.one_mul, Nat.zero_mul, Nat.mul_one]))

theorem aPart_ok (U : PApp α φ δ χ) (u0 : δ) (f0 : φ) (i : Nat) : (aPart i : PL α φ δ).Ok U u0 f0 where
  runI _ _ := Nat.zero_le _
  runC _ := Nat.zero_le _
  desI _ _ := Nat.zero_le _
  desC _ := Nat.zero_le _
  throw {f e f'} h := by
    cases f <;> simp only [pthrow, Option.some.injEq, reduceCtorEq] at h <;> subst h <;> first | exact Nat.zero_le _ | exact Nat.le_refl _
  step {s t f rest ad' sa} hr he hst hf hP := by
    have dr := sum_drop (α := α) (ePt i) (fun _ => 0) (s.view t).tid
    cases hP <;> (try subst_vars)
    case wtEnd i k dn => cases dn <;> simp only [waitEv] <;> ps aPart
    case wtGo i k dn p l => cases dn <;> simp only [waitEv] <;> ps aPart
    case caIn i K =>
      have := dr i (by intros; rfl) (by intros; rfl) (s.data.ad.imp i).jobs
      ps aPart
      have h0 : ∀ l : List (Call α), lsum (fun _ => 0) l = 0 := by intro l; simp [lsum]
      (try rw [h0] at this)
      omega
    case delIn => ps aPart; simp only [b1, Sync.set]; grind
    case maIn => ps aPart; simp only [b1, Sync.set]; grind
    all_goals ps aPart
    all_goals try simp only [b1]
    all_goals grind
  ck {s t x rest ad' id c} hr he hst hP := by
    cases hP
    all_goals ps aPart

theorem not_parted (hr : PR U u0 f0 s) {t i : Nat} {K : DK} (hm : .client (.app (.diIn i K)) ∈ s.stk t) : ∀ u, .parted u i ∉ s.data.ad.plog := by
  intro u hm'
  have h1 := (aPart_ok U u0 f0 i).mem hr hm
  have h2 : ePt i (PEv.parted u i : PEv α) ≤ lsum (ePt i) s.data.ad.plog := by
    obtain ⟨l1, l2, h⟩ := List.append_of_mem hm'
    rw [h, lsum_append, lsum_cons]; omega
  simp only [aPart, ePt, b1, if_true] at h1 h2
  have : (if s.data.ad.dying i = true then 1 else 0) ≤ 1 := by split <;> omega
  omega

/-! ## The workers of a pool -/

structure WkI (ad : PData α δ) : Prop where
  lt : ∀ {t i l n id}, .worker t i l n id ∈ ad.plog → i < ad.nimp
  wk : ∀ {t i l n id}, .worker t i l n id ∈ ad.plog → (∀ u, .parted u i ∉ ad.plog) → ⟨l, n, id⟩ ∈ (ad.imp i).wk

theorem wkI_step {v : View} {ad : PData α δ} {f : PFrame α φ} {rv : Val} {ch : Ch (PCh χ)} {ad' : PData α δ} {a : SAct (PTask α) (PFrame α φ)}
    (h : WkI ad) (hN : ∀ i h l n ws, f = .newId i h l n ws → i < ad.nimp) (hA : (poolApp U).step v ad f rv ch = some (ad', a)) : WkI ad' := by
  have hs := plog_suf hA
  have key : ad.nimp ≤ ad'.nimp → (∀ i, i < ad.nimp → (∀ u, .parted u i ∉ ad'.plog) → ∀ w ∈ (ad.imp i).wk, w ∈ (ad'.imp i).wk) →
      (∀ i h l n ws id, f = .newId i h l n ws → rv = .nat id → (⟨l, n, id⟩ : Wk) ∈ (ad'.imp i).wk) → WkI ad' := by
    intro h1 h2 h3
    refine ⟨fun hm => ?_, fun hm hp => ?_⟩ <;> rcases worker_new hA hm with hm | ⟨hv, h, ws, rfl⟩
    · exact Nat.lt_of_lt_of_le (h.lt hm) h1
    · exact Nat.lt_of_lt_of_le (hN _ _ _ _ _ rfl) h1
    · exact h2 _ (h.lt hm) hp _ (h.wk hm fun u hu => hp u (hs.subset hu))
    · exact h3 _ _ _ _ _ _ rfl hv
  cases pool_pc hA with
  | usr g ch u wa hU => exact key (Nat.le_refl _) (fun _ _ _ _ h => h) (by rintro _ _ _ _ _ _ ⟨⟩)
  | ck x d' id c hP =>
    cases hP <;> refine key (Nat.le_refl _) (fun j _ _ w h => ?_) (by rintro _ _ _ _ _ _ ⟨⟩) <;>
      simp only [PData.close, PData.ev, PData.upd, Sync.set] <;> (try split) <;> first | exact h | (subst_vars; exact h)
  | ps f d' a hf hb hP =>
    cases hP
    case newId i h l n ws id hv =>
      refine key (Nat.le_refl _) (fun j _ _ w h => ?_) ?_
      · simp only [PData.ev, PData.upd, Sync.set]
        split
        · subst_vars; exact List.mem_append_left _ h
        · exact h
      · rintro _ _ _ _ _ _ ⟨⟩ h
        cases hv.symm.trans h
        simp [PData.ev, PData.upd, Sync.set]
    case newIn h ws hn =>
      refine key (Nat.le_succ _) (fun j hj _ w h => ?_) (by rintro _ _ _ _ _ _ ⟨⟩)
      simp only [PData.upd, Sync.set]
      rw [if_neg (by omega)]; exact h
    case diIn i K =>
      refine key (Nat.le_refl _) (fun j hj hp w h => ?_) (by rintro _ _ _ _ _ _ ⟨⟩)
      simp only [PData.ev, PData.upd, Sync.set]
      split
      · subst_vars; exact absurd List.mem_cons_self (hp v.tid)
      · exact h
    case wtEnd i k dn =>
      refine key (by cases dn <;> exact Nat.le_refl _) (fun j _ _ w h => ?_) (by rintro _ _ _ _ _ _ ⟨⟩)
      cases dn <;> exact h
    case wtGo i k dn p l =>
      refine key (by cases dn <;> exact Nat.le_refl _) (fun j _ _ w h => ?_) (by rintro _ _ _ _ _ _ ⟨⟩)
      cases dn <;> exact h
    all_goals first
      | exact h
      | exact key (Nat.le_refl _) (fun _ _ _ _ h => h) (by rintro _ _ _ _ _ _ ⟨⟩)
      | (subst_vars; exact key (Nat.le_refl _) (fun _ _ _ _ h => h) (by rintro _ _ _ _ _ _ ⟨⟩))
      | (refine key (Nat.le_refl _) (fun j _ _ w h => ?_) (by rintro _ _ _ _ _ _ ⟨⟩)
         simp only [addH, insJob, chgJob, eraseJob, PData.ev, PData.upd, Sync.set]
         repeat' split
         all_goals first | exact h | (subst_vars; exact h))

theorem wkI (hr : PR U u0 f0 s) : WkI s.data.ad := by
  refine data_ind (fun ad => WkI ad) ⟨by simp, by simp⟩ ?_ hr
  intro s t ch f rest ad' a hr q he hst hA
  refine wkI_step q ?_ hA
  rintro i h l n ws rfl
  exact tyF hr (t := t) (f := .newId i h l n ws) (by rw [hst]; simp)

/-- When a pool has been made, it gets no more workers. -/
theorem worker_old (hr : PR U u0 f0 s) {lb : Lbl (PCh χ)} (hs : Core.step (client (poolApp U)) s lb = some s') {t i l n id : Nat} (hm : Made s.data.ad i)
    (h : .worker t i l n id ∈ s'.data.ad.plog) : .worker t i l n id ∈ s.data.ad.plog := by
  cases lb with
  | tick n => rw [step_tick _ s s' n hs] at h; exact h
  | th u ch =>
    rcases app_data hs with h1 | ⟨g, rest, sa, hexc, hst, hA⟩
    · rw [h1] at h; exact h
    · rcases worker_new hA h with h | ⟨-, x, ws, rfl⟩
      · exact h
      · exact absurd hm (new_unmade hr (t := u) (by rw [hst]; exact List.mem_cons_self))

/-! ## Jobs that were taken -/

/-- What has still to be done with a callable that was taken. -/
def TkS (c : Call α) (s : PSt α φ δ) (t : Nat) : Prop :=
  (s.thr t).exc = none ∧ (∃ x id rest, s.stk t = .client (.app (.ckUnl x id (some c))) :: rest ∨ s.stk t = .client (.app (.ckGo x id (some c))) :: rest ∨
    s.stk t = .client (.lkUn (gd x.i)) :: .client (.app (.ckGo x id (some c))) :: rest)

/-- A job that was taken is over, or the thread that took it is executing it. -/
theorem took_over (hr : PR U u0 f0 s) : ∀ t c, TookBy s.data.ad t c → rdy s.data.sd c.p ∨ TkS c s t ∨ ∃ x id, .client (.app (.ckRan x id c)) ∈ s.stk t := by
  refine Reach.induct (fun s : PSt α φ δ => ∀ t c, TookBy s.data.ad t c → rdy s.data.sd c.p ∨ TkS c s t ∨ ∃ x id, .client (.app (.ckRan x id c)) ∈ s.stk t) ?_ ?_ hr
  · rintro t c ⟨i, L, id, h, hm⟩; cases hm
  · intro s l s' hr q hs t c h
    have hext := step_ext hs
    cases l with
    | tick n => rw [step_tick _ s s' n hs] at h ⊢; exact q t c h
    | th u ch =>
      by_cases hn : TookBy s.data.ad t c
      · rcases q t c hn with h1 | h1 | ⟨x, id, h1⟩
        · exact .inl (rdy_mono hext h1)
        · by_cases hu : t = u
          · subst hu
            obtain ⟨he, x, id, rest, h1⟩ := h1
            cases mv hr hs with
            | sync g r0 a he hst hS hact had =>
              rcases h1 with h1 | h1 | h1 <;> (rw [hst] at h1; cases h1)
              · exact (SS.not_app hS).elim
              · exact (SS.not_app hS).elim
              · generalize s'.data.sd = d' at hS
                cases hS with
                | lkUn n h => exact .inr (.inl ⟨hact.2.1, x, id, rest, .inr (.inl hact.1)⟩)
                | lkUnBad n h => exact .inr (.inl ⟨hact.2.2, x, id, rest, .inr (.inr (hact.1.trans hst))⟩)
            | app g r0 a he hst hd hact hA =>
              obtain ⟨ch', hA⟩ := hA
              clear h
              generalize s'.data.ad = ad' at hA
              rcases h1 with h1 | h1 | h1 <;> (rw [hst] at h1; cases h1)
              · cases pool_pc hA with
                | ps f d' a hf hb hP =>
                  clear hA
                  cases hP with
                  | bad => exact .inr (.inl ⟨hact.2.2, x, id, rest, .inl (hact.1.trans hst)⟩)
                  | ckUnl => exact .inr (.inl ⟨hact.2.1, x, id, rest, .inr (.inr hact.1)⟩)
              · cases pool_pc hA with
                | ps f d' a hf hb hP =>
                  clear hA
                  cases hP with
                  | bad => exact .inr (.inl ⟨hact.2.2, x, id, rest, .inr (.inl (hact.1.trans hst))⟩)
                  | ckGo => exact .inr (.inr ⟨x, id, by rw [hact.1]; simp⟩)
            | hand e g g' r0 he1 hst hn' hf hst' he' hd had => rw [he] at he1; cases he1
            | drop e g r0 he1 hst hn' hf hst' he' hd had => rw [he] at he1; cases he1
            | core g r0 pre hst hpre hst' hd had => rcases h1 with h1 | h1 | h1 <;> (rw [hst] at h1; cases h1)
            | still hst' he' hd had =>
              refine .inr (.inl ⟨?_, x, id, rest, by rw [hst']; exact h1⟩)
              rcases he' with he' | he'
              · rw [he', he]
              · rcases h1 with h1 | h1 | h1 <;> (rw [h1] at he'; cases he')
          · obtain ⟨he, x, id, rest, h1⟩ := h1
            have hne : s.stk t ≠ [] := by rcases h1 with h1 | h1 | h1 <;> rw [h1] <;> simp
            rcases mv_oth hr hs hu with ⟨h3, h4⟩ | ⟨h3, -⟩
            · exact .inr (.inl ⟨by rw [h4 hne, he], x, id, rest, by rw [h3]; exact h1⟩)
            · exact absurd h3 hne
        · by_cases hu : t = u
          · subst hu
            have low : ∀ top r0 new, s.stk t = top :: r0 → s'.stk t = new ++ r0 → top ≠ .client (.app (.ckRan x id c)) → .client (.app (.ckRan x id c)) ∈ s'.stk t := by
              intro top r0 new h3 h4 h5
              rw [h3] at h1
              rw [h4]
              rcases List.mem_cons.1 h1 with h1 | h1
              · exact absurd h1.symm h5
              · simp [h1]
            by_cases htop : ∃ rest, s.stk t = .client (.app (.ckRan x id c)) :: rest
            · obtain ⟨rest, htop⟩ := htop
              have := (k_ready hr htop rfl).1
              exact .inl (rdy_mono hext ⟨ready_lt hr this, this⟩)
            · have nt : ∀ {top r0}, s.stk t = top :: r0 → top ≠ .client (.app (.ckRan x id c)) := fun h h' => htop ⟨_, h' ▸ h⟩
              refine .inr (.inr ⟨x, id, ?_⟩)
              cases mv hr hs with
              | sync g r0 a he hst hS hact had =>
                cases a with
                | goto x => exact low _ _ [_] hst hact.1 (nt hst)
                | push x y => exact low _ _ [_, _] hst hact.1 (nt hst)
                | call a y => exact low _ _ [_, _] hst hact.1 (nt hst)
                | ret v => exact low _ _ [] hst hact.1 (nt hst)
                | throw v => exact low _ _ [] hst hact.1 (nt hst)
                | terminate => rw [hact.1]; exact h1
              | app g r0 a he hst hd hact hA =>
                cases a with
                | goto x => exact low _ _ [_] hst hact.1 (nt hst)
                | push x y => exact low _ _ [_, _] hst hact.1 (nt hst)
                | core a y => exact low _ _ [_, _] hst hact.1 (nt hst)
                | sync a y => exact low _ _ [_, _] hst hact.1 (nt hst)
                | ret v => exact low _ _ [] hst hact.1 (nt hst)
                | throw v => exact low _ _ [] hst hact.1 (nt hst)
                | terminate => rw [hact.1]; exact h1
              | hand e g g' r0 he hst hn' hf hst' he' hd had => exact low _ _ [_] hst hst' (nt hst)
              | drop e g r0 he hst hn' hf hst' he' hd had => exact low _ _ [] hst hst' (nt hst)
              | core g r0 pre hst hpre hst' hd had => exact low _ _ pre hst hst' (nt hst)
              | still hst' he' hd had => rw [hst']; exact h1
          · rcases mv_oth hr hs hu with ⟨h3, -⟩ | ⟨h3, -⟩
            · exact .inr (.inr ⟨x, id, by rw [h3]; exact h1⟩)
            · rw [h3] at h1; cases h1
      · obtain ⟨i, L, id, hd, hm⟩ := h
        have hno : .took t i L id c hd ∉ s.data.ad.plog := fun h => hn ⟨_, _, _, _, h⟩
        cases mv hr hs with
        | app g r0 a he hst hd' hact hA =>
          obtain ⟨ch', hA⟩ := hA
          obtain ⟨es, h1, h2⟩ := plog_new hA
          have hm0 := hm
          rw [h1] at hm
          have h3 := h2 _ ((List.mem_append.1 hm).resolve_right hno)
          obtain ⟨ht, x, rfl, rfl, rfl⟩ := h3
          obtain rfl : t = u := ht
          clear h1 h2 hm
          generalize s'.data.ad = ad' at hA hm0
          cases pool_pc hA with
          | ck x d' id' c' hP =>
            clear hA
            cases hP <;> (rcases List.mem_cons.1 hm0 with h | h <;> first | (cases h; done) | exact absurd h hno | skip)
            cases h
            exact .inr (.inl ⟨hact.2.1, _, _, _, .inl hact.1⟩)
          | ps f d' a hf hb hP => exact absurd rfl (hb x)
        | sync f rest a he hst hS hact had => rw [had] at hm; exact absurd hm hno
        | hand e f f' rest he hst hn hf hst' he' hd had => rw [had] at hm; exact absurd hm hno
        | drop e f rest he hst hn hf hst' he' hd had => rw [had] at hm; exact absurd hm hno
        | core f rest pre hst hpre hst' hd had => rw [had] at hm; exact absurd hm hno
        | still hst' he' hd had => rw [had] at hm; exact absurd hm hno

theorem took_ended (hr : PR U u0 f0 s) {t : Nat} (hst : s.stk t = []) {c : Call α} (h : TookBy s.data.ad t c) : rdy s.data.sd c.p := by
  rcases took_over hr t c h with h | ⟨-, x, id, rest, h⟩ | ⟨i, id, h⟩
  · exact h
  · rcases h with h | h | h <;> (rw [hst] at h; cases h)
  · rw [hst] at h; cases h

end
end Pool
end Itc
