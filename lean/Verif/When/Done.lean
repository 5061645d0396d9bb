import Verif.When.Inv
import Verif.When.Hold
import Verif.Sync.AppMem

/-!
# When the promise of a context has its value (proof infrastructure, no claims)
-/
namespace Itc
namespace When
open Core Sync
section
variable {α φ δ χ : Type} {U : WApp α φ δ χ} {u0 : δ} {f0 : φ} {s s' : WSt α φ δ}

/-! ## The critical section excludes itself -/

def secH (c : Nat) : WFrame φ → Nat
  | .aIn c' _ => b1 (c' = c)
  | .aSet c' _ => b1 (c' = c)
  | .aUnl c' _ => b1 (c' = c)
  | .kBody c' _ _ => b1 (c' = c)
  | .kSet c' _ => b1 (c' = c)
  | .kAll c' _ => b1 (c' = c)
  | .kUnl c' _ => b1 (c' = c)
  | .kThr c' _ _ => b1 (c' = c)
  | _ => 0

def secE (c : Nat) : WFrame φ → Bool
  | .aIn c' _ => decide (c' = c)
  | .kBody c' _ _ => decide (c' = c)
  | _ => false

theorem mapS_lkw (a : SApi α) (c : Nat) : lkw (pob c) ((mapS a).entry : SFrame (WTask α) (WFrame φ)) = 0 := by
  have h1 : ∀ n, ¬ 2 * n = pob c := by intro n; unfold pob; omega
  cases a <;> simp [mapS, SApi.entry, lkw, h1]

theorem pob_eq {c c' : Nat} : pob c' = pob c ↔ c' = c := ⟨pob_inj, fun h => by rw [h]⟩

def sec (U : WApp α φ δ χ) (u0 : δ) (f0 : φ) (c : Nat) : ALk (ak U u0 f0) ((lOwn_ok c).al U u0 f0) where
  n := pob c
  H := secH c
  e := secE c
  e_lock {f} h := by
    cases f <;> simp [secE] at h <;> subst h <;> rfl
  e_le {f} h := by cases f <;> simp only [secH, b1] <;> (try split) <;> omega
  z {f} h := by obtain ⟨g, rfl⟩ := h; rfl
  run a := by cases a <;> exact ⟨rfl, rfl⟩
  throw {f x f'} h := by
    rcases when_throw h with ⟨g, g', -, rfl⟩ | h
    · exact Nat.zero_le _
    · cases f <;> simp only [wthrow, Option.some.injEq, reduceCtorEq] at h <;> subst h <;> first | exact Nat.zero_le _ | exact Nat.le_refl _
  app {v ad f rv ch ad' sa} hs := by
    cases when_wc hs with
    | usr g u wa hU =>
      clear hs hU
      cases wa <;> simp only [liftW, secH, secE, mapS_lkw] <;> exact Nat.le_refl _
    | wh f d' a hf hW =>
      clear hs
      cases hW <;> first
        | exact Nat.zero_le _
        | exact Nat.le_refl _
        | (rename_i ha; rcases ha with ⟨-, rfl⟩ | rfl <;> exact Nat.zero_le _)
        | (simp [secH, secE, lkw, SApi.entry, pob_eq, b1]; done)
        | grind [secH, secE, lkw, SApi.entry, pob_eq, b1]

/-- A frame on top that holds the mutex of a context, and a frame below a call that holds it. -/
theorem sec_excl (h : WR U u0 f0 s) {t u c : Nat} {f g : WFrame φ} {rest : List (Fr (WTask α) (WFrame φ))}
    (hst : s.stk t = .client (.app f) :: rest) (he : (s.thr t).exc = none) (hf : secH c f = 1) (hg : secH c g = 1) (hge : secE c g = false)
    (hm : .client (.app g) ∈ s.stk u) (hmt : u = t → .client (.app g) ∈ rest) : False :=
  (sec U u0 f0 c).excl h hst he (Nat.le_of_eq hf.symm) (Nat.le_of_eq hg.symm) hge hm hmt

/-! ## Where the frames of this layer go -/

/-- A frame stays on its stack until it is on top and its thread steps. -/
theorem keep {t u : Nat} {ch : Ch χ} (hr : WR U u0 f0 s) (hs : step (client (whenApp U)) s (.th t ch) = some s') {f : WFrame φ}
    (hm : .client (.app f) ∈ s.stk u) : .client (.app f) ∈ s'.stk u ∨ ∃ rest, s.stk t = .client (.app f) :: rest ∧
      (((s.thr t).exc = none ∧ ∃ a ch', ActTo s s' t rest (liftAct a) ∧ (whenApp U).step (s.view t) s.data.ad f (s.thr t).rv ch' = some (s'.data.ad, a)) ∨
       (∃ e, (s.thr t).exc = some e ∧ ((∃ f', (whenApp U).onThrow f e = some f' ∧ .client (.app f') ∈ s'.stk t) ∨ (whenApp U).onThrow f e = none))) := by
  by_cases hu : u = t
  · subst hu
    have low : ∀ top rest new, s.stk u = top :: rest → s'.stk u = new ++ rest → top ≠ .client (.app f) → .client (.app f) ∈ s'.stk u := by
      intro top rest new h1 h2 h3
      rw [h1] at hm
      rcases List.mem_cons.1 hm with h | h
      · exact absurd h.symm h3
      · rw [h2]; simp [h]
    cases mv hr hs with
    | sync g rest a he hst hS hact had =>
      left
      have hne : (Frame.client g : Fr (WTask α) (WFrame φ)) ≠ .client (.app f) := by
        intro h; cases h; exact hS.not_app.elim
      cases a with
      | goto x => exact low _ rest [_] hst hact.1 hne
      | push x k => exact low _ rest [_, _] hst hact.1 hne
      | call b k => exact low _ rest [_, _] hst hact.1 hne
      | ret v => exact low _ rest [] hst hact.1 hne
      | throw v => exact low _ rest [] hst hact.1 hne
      | terminate => rw [hact.1]; exact hm
    | app g rest a he hst hd hact hA =>
      by_cases hg : g = f
      · subst hg
        obtain ⟨ch', hA⟩ := hA
        exact .inr ⟨rest, hst, .inl ⟨he, a, ch', hact, hA⟩⟩
      · left
        have hne : (Frame.client (.app g) : Fr (WTask α) (WFrame φ)) ≠ .client (.app f) := by
          intro h; cases h; exact hg rfl
        cases a with
        | goto x => exact low _ rest [_] hst hact.1 hne
        | push x k => exact low _ rest [_, _] hst hact.1 hne
        | core b k => exact low _ rest [_, _] hst hact.1 hne
        | sync b k => exact low _ rest [_, _] hst hact.1 hne
        | ret v => exact low _ rest [] hst hact.1 hne
        | throw v => exact low _ rest [] hst hact.1 hne
        | terminate => rw [hact.1]; exact hm
    | hand e g g' rest he hst hn hf hst' he' hd had =>
      by_cases hg : g = .app f
      · subst hg
        simp only [sThrow, Option.map_eq_some_iff] at hf
        obtain ⟨f', h1, rfl⟩ := hf
        exact .inr ⟨rest, hst, .inr ⟨e, he, .inl ⟨f', h1, by rw [hst']; simp⟩⟩⟩
      · exact .inl (low _ rest [_] hst hst' (by simpa using hg))
    | drop e g rest he hst hn hf hst' he' hd had =>
      by_cases hg : g = .app f
      · subst hg
        simp only [sThrow, Option.map_eq_none_iff] at hf
        exact .inr ⟨rest, hst, .inr ⟨e, he, .inr hf⟩⟩
      · exact .inl (low _ rest [] hst hst' (by simpa using hg))
    | core g rest pre hst hpre hst' hd had => exact .inl (low _ rest pre hst hst' (by simp))
    | still hst' he' hd had => rw [hst']; exact .inl hm
  · left
    rcases mv_oth hr hs hu with ⟨h, -⟩ | ⟨h, -⟩
    · rw [h]; exact hm
    · rw [h] at hm; simp at hm

/-- The promise of context `c` was given a value. -/
def hasW (s : WSt α φ δ) (c : Nat) : Prop := ∃ p, was s.data.sd p ∧ homeOk s.data.sd c p

/-- The promise of context `c` was given a value, or the lambda for input `i` is about to do so, or a lambda has thrown. -/
def Due (s : WSt α φ δ) (c i : Nat) : Prop :=
  hasW s c ∨ (∃ t f, ending c i f ∧ .client (.app f) ∈ s.stk t) ∨ (s.data.ad.ctx c).failed ≠ []

theorem hasW_mono {l : Lbl χ} (hs : step (client (whenApp U)) s l = some s') {c : Nat} (h : hasW s c) : hasW s' c := by
  obtain ⟨p, h1, h2⟩ := h
  exact ⟨p, was_mono (step_ext hs) h1, h2.mono (step_ext hs)⟩

theorem ws_failed {v : View} {d d' : WData δ} {rv : Val} {f : WFrame φ} {a : SAct (WTask α) (WFrame φ)} (h : WS v d rv f d' a) {c : Nat} (hc : c < d.nctx)
    (hf : (d.ctx c).failed ≠ []) : (d'.ctx c).failed ≠ [] := by
  cases h <;> first | exact hf | (subst_vars; simp only [WData.upd, ctx_set]; grind [List.append_eq_nil_iff])

theorem failed_mono {l : Lbl χ} (hr : WR U u0 f0 s) (hs : step (client (whenApp U)) s l = some s') {c : Nat} (hc : c < s.data.ad.nctx)
    (hf : (s.data.ad.ctx c).failed ≠ []) : (s'.data.ad.ctx c).failed ≠ [] := by
  cases l with
  | tick n => rw [step_tick _ s s' n hs]; exact hf
  | th t ch =>
    cases mv hr hs with
    | app x rest a he hst hd hact hA =>
      obtain ⟨ch', hA⟩ := hA
      generalize s'.data.ad = ad' at hA
      cases when_wc hA with
      | usr g u wa hU => exact hf
      | wh f d' a hf' hW => exact ws_failed hW hc hf
    | sync f rest a he hst hS hact had => rw [had]; exact hf
    | hand e f f' rest he hst hn' hf hst' he' hd had => rw [had]; assumption
    | drop e f rest he hst hn' hf hst' he' hd had => rw [had]; assumption
    | core f rest pre hst hpre hst' hd had => rw [had]; exact hf
    | still hst' he' hd had => rw [had]; exact hf

theorem due_mono {l : Lbl χ} (hr : WR U u0 f0 s) (hs : step (client (whenApp U)) s l = some s') {c i : Nat} (hc : c < s.data.ad.nctx) (h : Due s c i) : Due s' c i := by
  rcases h with h | ⟨u, f, hf, hm⟩ | h
  · exact .inl (hasW_mono hs h)
  · cases l with
    | tick n => rw [step_tick _ s s' n hs]; exact .inr (.inl ⟨u, f, hf, hm⟩)
    | th t ch =>
      rcases keep hr hs hm with h | ⟨rest, hst, ⟨he, a, ch', hact, hA⟩ | ⟨e, he, h⟩⟩
      · exact .inr (.inl ⟨u, f, hf, h⟩)
      · rcases hf with rfl | rfl | ⟨e, rfl⟩
        · exact .inl (hasW_mono hs (set_ok hr hst he rfl))
        · exact .inl (hasW_mono hs (set_ok hr hst he rfl))
        · generalize had : s'.data.ad = ad' at hA
          cases when_wc hA with
          | wh f d' a hf' hW =>
            cases hW with
            | bad => exact .inr (.inl ⟨t, _, .inr (.inr ⟨e, rfl⟩), by rw [hact.1, hst]; simp⟩)
            | kThr c i e x hx => refine .inr (.inr ?_); rw [had, hx]; simp [WData.upd]
      · rcases hf with rfl | rfl | ⟨e', rfl⟩
        · rcases h with ⟨f', h1, h2⟩ | h
          · cases h1; exact .inr (.inl ⟨t, _, .inr (.inr ⟨e, rfl⟩), h2⟩)
          · cases h
        · rcases h with ⟨f', h1, h2⟩ | h
          · cases h1; exact .inr (.inl ⟨t, _, .inr (.inr ⟨e, rfl⟩), h2⟩)
          · cases h
        · exact absurd rfl (((ah U f0 c).ok hr).exc t _ rest (by rw [he]; simp) hst)
  · exact .inr (.inr (failed_mono hr hs hc h))

theorem gr_step {l : Lbl χ} (hr : WR U u0 f0 s) (hs : step (client (whenApp U)) s l = some s') : Gr s.data.ad s'.data.ad := by
  cases l with
  | tick n => rw [step_tick _ s s' n hs]; exact Gr.refl _
  | th t ch =>
    cases mv hr hs with
    | app x rest a he hst hd hact hA =>
      obtain ⟨ch', hA⟩ := hA
      have hok := wt_ok hr
      generalize s'.data.ad = ad' at hA
      cases when_wc hA with
      | usr g u wa hU => exact ⟨Nat.le_refl _, fun _ => rfl, fun _ => rfl, fun _ => rfl, fun _ h => h, fun _ h => h, fun _ => Nat.le_refl _, fun _ => Nat.le_refl _, fun _ => rfl⟩
      | wh f d' a hf hW => exact (app_goal hr he hst hok.data.i (hok.fr t (.client (.app x)) (by rw [hst]; simp)) hW).2.1
    | sync f rest a he hst hS hact had => rw [had]; exact Gr.refl _
    | hand e f f' rest he hst hn' hf hst' he' hd had => rw [had]; exact Gr.refl _
    | drop e f rest he hst hn' hf hst' he' hd had => rw [had]; exact Gr.refl _
    | core f rest pre hst hpre hst' hd had => rw [had]; exact Gr.refl _
    | still hst' he' hd had => rw [had]; exact Gr.refl _

/-! ## Steps of a context -/

/-- when_any has checked for the last time whether an input is ready. -/
def postF (c : Nat) (f : WFrame φ) : Prop := (∃ p, f = .aUnl c (.ret p) ∨ f = .rel c (.ret p)) ∨ f = .gGet c ∨ f = .gGot c

def post (s : WSt α φ δ) (c : Nat) : Prop :=
  (∃ t f, postF c f ∧ .client (.app f) ∈ s.stk t) ∨ (1 ≤ (s.data.ad.ctx c).rel ∧ (s.data.ad.ctx c).abort = false)

theorem ws_post {v : View} {d d' : WData δ} {rv : Val} {f g : WFrame φ} {a : SAct (WTask α) (WFrame φ)} (h : WS v d rv f d' a) {c : Nat}
    (ha : (liftAct a).cont = some (.app g) ∨ ∃ k, a = .push g k) (hg : postF c g) :
    postF c f ∨ (∃ p, f = .aIn c p ∧ ¬ ((d.ctx c).ready ≠ 0 ∧ (d.ctx c).pset = false) ∧ d' = d) ∨ (∃ p, f = .aSet c p) ∨ f = .mkD c ∨
      ((∃ p id i, f = .wLoop c p id i []) ∧ (d.ctx c).any = false) := by
  have h0 : ∀ g', a = .goto g' → g = g' := by
    rintro g' rfl; rcases ha with ha | ⟨k, ha⟩
    · simpa [liftAct, Act.cont, eq_comm] using ha
    · cases ha
  have h1 : ∀ b k, a = .sync b k → g = k := by
    rintro b k rfl; rcases ha with ha | ⟨k', ha⟩
    · simpa [liftAct, Act.cont, eq_comm] using ha
    · cases ha
  have h2 : ∀ x, a = .ret x → False := by
    rintro b rfl; rcases ha with ha | ⟨k', ha⟩
    · simp [liftAct, Act.cont] at ha
    · cases ha
  have h3 : ∀ x, a = .throw x → False := by
    rintro b rfl; rcases ha with ha | ⟨k', ha⟩
    · simp [liftAct, Act.cont] at ha
    · cases ha
  have h4 : a = .terminate → False := by
    rintro rfl; rcases ha with ha | ⟨k', ha⟩
    · simp [liftAct, Act.cont] at ha
    · cases ha
  clear ha
  unfold postF at hg
  cases h <;> first
    | exact (h4 rfl).elim
    | exact (h2 _ rfl).elim
    | exact (h3 _ rfl).elim
    | (have e := h0 _ rfl; subst e; simp at hg; done)
    | (have e := h1 _ _ rfl; subst e; simp at hg; done)
    | skip
  case mkD c' p' hp => have e := h0 _ rfl; subst e; simp at hg; subst hg; exact .inr (.inr (.inr (.inl rfl)))
  case loopAll c' p' id i hh _ => have e := h0 _ rfl; subst e; simp at hg; subst hg; exact .inr (.inr (.inr (.inr ⟨⟨_, _, _, rfl⟩, hh⟩)))
  case loopTup c' p' id i hh _ => have e := h0 _ rfl; subst e; simp at hg; subst hg; exact .inr (.inr (.inr (.inr ⟨⟨_, _, _, rfl⟩, hh⟩)))
  case aNo c' p' hh => have e := h0 _ rfl; subst e; simp at hg; subst hg; exact .inr (.inl ⟨_, rfl, hh, rfl⟩)
  case aSet c' p' x hx => have e := h0 _ rfl; subst e; simp at hg; subst hg; exact .inr (.inr (.inl ⟨_, rfl⟩))
  case aUnl c' r _ => have e := h1 _ _ rfl; subst e; simp at hg; obtain ⟨rfl, p, rfl⟩ := hg; exact .inl (.inl ⟨p, .inl rfl⟩)
  case aUnlT c' p _ => have e := h1 _ _ rfl; subst e; simp at hg; subst hg; exact .inl (.inl ⟨p, .inl rfl⟩)
  case gGet c' => have e := h1 _ _ rfl; subst e; simp at hg; subst hg; exact .inl (.inr (.inl rfl))
  case gGot c' p _ => have e := h0 _ rfl; subst e; simp at hg; subst hg; exact .inl (.inr (.inr rfl))
  case relRet ha => rcases ha with ⟨-, rfl⟩ | rfl
                    · have e := h1 _ _ rfl; subst e; simp at hg
                    · have e := h0 _ rfl; subst e; simp at hg
  case relThr ha => rcases ha with ⟨-, rfl⟩ | rfl
                    · have e := h1 _ _ rfl; subst e; simp at hg
                    · have e := h0 _ rfl; subst e; simp at hg
  case dIn ha => rcases ha with ⟨-, rfl⟩ | rfl
                 · have e := h1 _ _ rfl; subst e; simp at hg
                 · have e := h0 _ rfl; subst e; simp at hg

theorem ws_rel {v : View} {d d' : WData δ} {rv : Val} {f : WFrame φ} {a : SAct (WTask α) (WFrame φ)} (h : WS v d rv f d' a) {c : Nat} (hc : c < d.nctx)
    (h1 : 1 ≤ (d'.ctx c).rel) (h2 : (d'.ctx c).abort = false) : (1 ≤ (d.ctx c).rel ∧ (d.ctx c).abort = false) ∨ postF c f := by
  cases h <;> first | exact .inl ⟨h1, h2⟩ | (subst_vars; simp only [WData.upd, ctx_set] at h1 h2; grind [postF])

/-- What a step does to the fields of a context that matter here. -/
inductive CtxS (d : WData δ) (f : WFrame φ) (a : SAct (WTask α) (WFrame φ)) (c : Nat) (x : Ctx) : Prop
  | same (h1 : x.ready = (d.ctx c).ready) (h2 : x.pset = (d.ctx c).pset) (h3 : x.done = (d.ctx c).done)
  | set (h0 : (∃ p, f = .aSet c p) ∨ ∃ i, f = .kSet c i) (h1 : x.ready = (d.ctx c).ready) (h3 : x.done = (d.ctx c).done)
  | win (i q : Nat) (h0 : f = .kBody c i q) (h1 : (d.ctx c).any = true) (h2 : x.pset = (d.ctx c).pset) (h3 : x.done = (d.ctx c).done ++ [i])
      (h4 : ∃ b, a = .sync b (.kSet c i))
  | first (i q : Nat) (h0 : f = .kBody c i q) (h1 : (d.ctx c).any = true) (h2 : x.pset = (d.ctx c).pset) (h3 : x.done = (d.ctx c).done ++ [i])
      (h4 : (d.ctx c).ready = 0) (h5 : ¬ ((d.ctx c).processed = (d.ctx c).total ∧ (d.ctx c).pset = false))
  | late (i q : Nat) (h0 : f = .kBody c i q) (h1 : (d.ctx c).any = true) (h2 : x.pset = (d.ctx c).pset) (h3 : x.done = (d.ctx c).done ++ [i])
      (h4 : (d.ctx c).ready ≠ 0)
  | last (i q : Nat) (h0 : f = .kBody c i q) (h1 : (d.ctx c).any = false) (h2 : x.pset = (d.ctx c).pset) (h3 : x.done = (d.ctx c).done ++ [i])
      (h4 : ∃ b, a = .sync b (.kAll c i))
  | one (i q : Nat) (h0 : f = .kBody c i q) (h1 : (d.ctx c).any = false) (h2 : x.pset = (d.ctx c).pset) (h3 : x.done = (d.ctx c).done ++ [i])
      (h4 : x.ready ≠ x.total)

theorem ws_ctx {v : View} {d d' : WData δ} {rv : Val} {f : WFrame φ} {a : SAct (WTask α) (WFrame φ)} (h : WS v d rv f d' a) {c : Nat} (hc : c < d.nctx) :
    CtxS d f a c (d'.ctx c) := by
  cases h <;> first | exact .same rfl rfl rfl | skip
  case wIn => simp only [WData.upd, ctx_set, if_neg (Nat.ne_of_lt hc)]; exact .same rfl rfl rfl
  case wIn0 => simp only [WData.upd, ctx_set, if_neg (Nat.ne_of_lt hc)]; exact .same rfl rfl rfl
  case wInT => simp only [WData.upd, ctx_set, if_neg (Nat.ne_of_lt hc)]; exact .same rfl rfl rfl
  case loop c' _ _ _ _ _ _ x hx =>
    simp only [WData.upd, ctx_set]
    by_cases e : c = c'
    · rw [if_pos e, hx, ← e]; exact .same rfl rfl rfl
    · rw [if_neg e]; exact .same rfl rfl rfl
  all_goals
    simp only [WData.upd, ctx_set]
    split
    · subst_vars
      first
      | exact .same rfl rfl rfl
      | exact .set (.inl ⟨_, rfl⟩) rfl rfl
      | exact .set (.inr ⟨_, rfl⟩) rfl rfl
      | exact .win _ _ rfl ‹_› rfl rfl ⟨_, rfl⟩
      | exact .last _ _ rfl ‹_› rfl rfl ⟨_, rfl⟩
      | exact .first _ _ rfl ‹_› rfl rfl ‹_› ‹_›
      | exact .one _ _ rfl ‹_› rfl rfl ‹_›
      | exact .late _ _ rfl ‹_› rfl rfl ‹_›
    · exact .same rfl rfl rfl

theorem ws_new {v : View} {d d' : WData δ} {rv : Val} {f : WFrame φ} {a : SAct (WTask α) (WFrame φ)} (h : WS v d rv f d' a) {c : Nat} (hc : ¬ c < d.nctx)
    (hc' : c < d'.nctx) : (d'.ctx c).ready = 0 ∧ (d'.ctx c).pset = false ∧ (d'.ctx c).done = [] := by
  cases h <;> first | exact absurd hc' hc | skip
  all_goals
    simp only at hc'
    have e : c = d.nctx := by omega
    subst e
    simp [WData.upd, newCtx]

def entW : WFrame φ → Prop
  | .usr _ => True
  | .kIn _ _ _ => True
  | .dIn _ _ _ => True
  | _ => False

theorem entW_ok (U : WApp α φ δ χ) : Entry (whenApp U) entW where
  run a := by cases a <;> trivial
  destroy a := by cases a <;> trivial
  code := by
    intro v ad f rv ch ad' a k hs
    generalize hx : (SAct.core a k : SAct (WTask α) (WFrame φ)) = x at hs
    cases when_wc hs with
    | usr g u wa hU =>
      clear hs
      cases wa <;> simp only [liftW, SAct.core.injEq, reduceCtorEq] at hx
      obtain ⟨rfl, -⟩ := hx
      exact mapW_ok (fun _ _ => trivial) (fun _ => trivial) _
    | wh f d' a' hf hW =>
      cases hW <;> first | (cases hx; done) | skip
      all_goals (rename_i ha; rcases ha with ⟨-, rfl⟩ | rfl <;> cases hx)

/-- How when_any gets past its last check. -/
theorem post_step {t : Nat} {ch : Ch χ} (hr : WR U u0 f0 s) (hs : step (client (whenApp U)) s (.th t ch) = some s') {c : Nat}
    (hc : c < s.data.ad.nctx) (ha : (s.data.ad.ctx c).any = true) (ht : (s.data.ad.ctx c).total ≠ 0) (h : post s' c) :
    post s c ∨ (∃ p rest, s.stk t = .client (.app (.aIn c p)) :: rest ∧ (s.thr t).exc = none ∧
        ¬ ((s.data.ad.ctx c).ready ≠ 0 ∧ (s.data.ad.ctx c).pset = false) ∧ s'.data.ad = s.data.ad) ∨
      (∃ p rest, s.stk t = .client (.app (.aSet c p)) :: rest ∧ (s.thr t).exc = none) := by
  rcases h with ⟨u, g, hg, hm⟩ | ⟨h1, h2⟩
  · have hT : ¬ entW g := by obtain ⟨p, rfl | rfl⟩ | rfl | rfl := hg <;> exact id
    rcases (entW_ok U).mem hr hs hm with h | ⟨h, -⟩ | ⟨-, h⟩ | ⟨-, f, rest, a, ch', he, hst, hA, hk⟩ | ⟨-, f, e, rest, hst, hA, -⟩
    · exact .inl (.inl ⟨u, g, hg, h⟩)
    · exact absurd h hT
    · exact absurd h hT
    · generalize had : s'.data.ad = ad' at hA
      cases when_wc hA with
      | usr g' u' wa hU =>
        exfalso
        clear hA hU
        rcases hg with ⟨p, rfl | rfl⟩ | rfl | rfl <;> cases wa <;> simp [liftW, liftAct, Act.cont] at hk
      | wh f d' a hf hW =>
        rcases ws_post hW hk hg with h | ⟨p, rfl, h1, h2⟩ | ⟨p, rfl⟩ | rfl | ⟨-, h⟩
        · exact .inl (.inl ⟨t, f, h, by rw [hst]; simp⟩)
        · exact .inr (.inl ⟨p, rest, hst, he, h1, h2⟩)
        · exact .inr (.inr ⟨p, rest, hst, he⟩)
        · exact absurd ((wt_ok hr).fr t (.client (.app (.mkD c))) (by rw [hst]; simp)).2.2.1 ht
        · rw [ha] at h; cases h
    · exfalso
      rcases when_throw hA with ⟨x, y, -, rfl⟩ | h
      · obtain ⟨p, h | h⟩ | h | h := hg <;> cases h
      · cases f <;> simp only [wthrow, Option.some.injEq, reduceCtorEq] at h <;> subst h <;> (obtain ⟨p, h | h⟩ | h | h := hg <;> cases h)
  · left
    have key : s'.data.ad.ctx = s.data.ad.ctx → post s c := fun e => .inr (by rw [← e]; exact ⟨h1, h2⟩)
    cases mv hr hs with
    | app x rest a he hst hd hact hA =>
      obtain ⟨ch', hA⟩ := hA
      generalize had : s'.data.ad = ad' at hA h1 h2 key
      cases when_wc hA with
      | usr g u wa hU => exact key rfl
      | wh f d' a hf' hW =>
        rcases ws_rel hW hc h1 h2 with h | h
        · exact .inr h
        · exact .inl ⟨t, x, h, by rw [hst]; simp⟩
    | sync f rest a he hst hS hact had => exact key (by rw [had])
    | hand e f f' rest he hst hn' hf hst' he' hd had => exact key (by rw [had])
    | drop e f rest he hst hn' hf hst' he' hd had => exact key (by rw [had])
    | core f rest pre hst hpre hst' hd had => exact key (by rw [had])
    | still hst' he' hd had => exact key (by rw [had])

/-- Past the last check, when_any has attached to every input. -/
theorem post_full (hr : WR U u0 f0 s) {c : Nat} (hc : c < s.data.ad.nctx) (ha : (s.data.ad.ctx c).any = true) (h : post s c) :
    (s.data.ad.ctx c).processed = (s.data.ad.ctx c).total := by
  have hci := (wt_ok hr).data.i.ctx c hc
  have hf : (s.data.ad.ctx c).full := by
    rcases h with ⟨u, g, ⟨p, rfl | rfl⟩ | rfl | rfl, hm⟩ | ⟨h1, h2⟩
    · exact ((wt_ok hr).fr u (.client (.app (.aUnl c (.ret p)))) hm).2.2
    · exact ((wt_ok hr).fr u (.client (.app (.rel c (.ret p)))) hm).2.2
    · exact ((wt_ok hr).fr u (.client (.app (.gGet c))) hm).2.2
    · exact ((wt_ok hr).fr u (.client (.app (.gGot c))) hm).2.2
    · rcases hci.relM h1 with h | h
      · rw [h2] at h; cases h
      · exact h
  have := hf.2 ha; have := hci.proc; have := hci.madeLe
  omega

/-- The promise of a context is given its value in time. -/
structure J (s : WSt α φ δ) (c : Nat) : Prop where
  all : (s.data.ad.ctx c).any = false → (s.data.ad.ctx c).ready = (s.data.ad.ctx c).total → ∃ i, Due s c i
  pset : (s.data.ad.ctx c).any = true → (s.data.ad.ctx c).pset = true → hasW s c
  any : (s.data.ad.ctx c).any = true → post s c → ∀ i ∈ (s.data.ad.ctx c).done, Due s c i

theorem J.step {t : Nat} {ch : Ch χ} (hr : WR U u0 f0 s) (hs : step (client (whenApp U)) s (.th t ch) = some s') {c : Nat}
    (hc : c < s.data.ad.nctx) (ht : (s.data.ad.ctx c).total ≠ 0) (h : J s c) : J s' c := by
  have hg := gr_step hr hs
  have hci := (wt_ok hr).data.i.ctx c hc
  have ha' := hg.any hc
  have ht' := hg.total hc
  have hfst : (s.data.ad.ctx c).any = true → ∀ i ∈ (s.data.ad.ctx c).done, (s.data.ad.ctx c).ready ≠ 0 := fun ha i hi =>
    (hci.fst ha).2 (List.ne_nil_of_mem hi)
  -- a step that changes nothing of the context
  have same : (s'.data.ad.ctx c).ready = (s.data.ad.ctx c).ready → (s'.data.ad.ctx c).pset = (s.data.ad.ctx c).pset →
      (s'.data.ad.ctx c).done = (s.data.ad.ctx c).done → J s' c := by
    intro h1 h2 h3
    refine ⟨?_, ?_, ?_⟩
    · rw [ha', ht', h1]; intro a b; obtain ⟨i, hi⟩ := h.all a b; exact ⟨i, due_mono hr hs hc hi⟩
    · rw [ha', h2]; intro a b; exact hasW_mono hs (h.pset a b)
    · rw [ha', h3]
      intro a hp i hi
      rcases post_step hr hs hc a ht hp with hp | ⟨p, rest, hst, he, hno, -⟩ | ⟨p, rest, hst, he⟩
      · exact due_mono hr hs hc (h.any a hp i hi)
      · have : (s.data.ad.ctx c).pset = true := by
          cases hps : (s.data.ad.ctx c).pset
          · exact absurd ⟨hfst a i hi, hps⟩ hno
          · rfl
        exact .inl (hasW_mono hs (h.pset a this))
      · exact .inl (hasW_mono hs (set_ok hr hst he rfl))
  have samed : s'.data.ad = s.data.ad → J s' c := fun e => same (by rw [e]) (by rw [e]) (by rw [e])
  cases mv hr hs with
  | sync f rest a he hst hS hact had => exact samed had
  | hand e f f' rest he hst hn' hf hst' he' hd had => exact samed had
  | drop e f rest he hst hn' hf hst' he' hd had => exact samed had
  | core f rest pre hst hpre hst' hd had => exact samed had
  | still hst' he' hd had => exact samed had
  | app x rest a he hst hd hact hA =>
    obtain ⟨ch', hA⟩ := hA
    generalize had : s'.data.ad = ad' at hA
    cases when_wc hA with
    | usr g u wa hU => exact same (by rw [had]) (by rw [had]) (by rw [had])
    | wh f d' a hf' hW =>
      have hW' := ws_ctx hW hc
      rw [← had] at hW'
      -- a lambda runs after the last check of when_any
      have hpost : ∀ {i q}, x = .kBody c i q → (s.data.ad.ctx c).any = true → post s' c → post s c := by
        rintro i q rfl a hp
        rcases post_step hr hs hc a ht hp with hp | ⟨p, rest', hst', -⟩ | ⟨p, rest', hst', -⟩
        · exact hp
        · rw [hst] at hst'; cases hst'
        · rw [hst] at hst'; cases hst'
      -- the lambdas that ran before
      have old : ∀ {i q}, x = .kBody c i q → (s.data.ad.ctx c).any = true → (s'.data.ad.ctx c).pset = (s.data.ad.ctx c).pset →
          (s'.data.ad.ctx c).done = (s.data.ad.ctx c).done ++ [i] → (post s c → Due s' c i) → J s' c := by
        intro i q hx a h2 h3 hd
        refine ⟨?_, ?_, ?_⟩
        · rw [ha', a]; intro h; cases h
        · rw [ha', h2]; intro a b; exact hasW_mono hs (h.pset a b)
        · rw [ha', h3]
          intro a hp j hj
          have hp := hpost hx a hp
          rcases List.mem_append.1 hj with hj | hj
          · exact due_mono hr hs hc (h.any a hp j hj)
          · obtain rfl := List.mem_singleton.1 hj
            exact hd hp
      cases hW' with
      | same h1 h2 h3 => exact same h1 h2 h3
      | set h0 h1 h3 =>
        have hw : hasW s' c := by
          rcases h0 with ⟨p, rfl⟩ | ⟨i, rfl⟩
          · exact hasW_mono hs (set_ok hr hst he rfl)
          · exact hasW_mono hs (set_ok hr hst he rfl)
        exact ⟨fun _ _ => ⟨0, .inl hw⟩, fun _ _ => hw, fun _ _ i _ => .inl hw⟩
      | win i q h0 h1 h2 h3 h4 =>
        refine old h0 h1 h2 h3 fun _ => ?_
        obtain ⟨b, rfl⟩ := h4
        exact .inr (.inl ⟨t, _, .inl rfl, by rw [hact.1]; simp⟩)
      | first i q h0 h1 h2 h3 h4 h5 =>
        refine old h0 h1 h2 h3 fun hp => ?_
        have : (s.data.ad.ctx c).pset = true := by
          cases hps : (s.data.ad.ctx c).pset
          · exact absurd ⟨post_full hr hc h1 hp, hps⟩ h5
          · rfl
        exact .inl (hasW_mono hs (h.pset h1 this))
      | late i q h0 h1 h2 h3 h4 =>
        refine old h0 h1 h2 h3 fun hp => ?_
        subst h0
        obtain ⟨j, hj⟩ := List.exists_mem_of_ne_nil _ ((hci.fst h1).1 h4)
        rcases h.any h1 hp j hj with h | ⟨u, g, hg, hm⟩ | h
        · exact .inl (hasW_mono hs h)
        · exfalso
          refine sec_excl (c := c) hr hst he (g := g) (u := u) (by simp [secH, b1]) ?_ ?_ hm ?_
          · rcases hg with rfl | rfl | ⟨e, rfl⟩ <;> simp [secH, b1]
          · rcases hg with rfl | rfl | ⟨e, rfl⟩ <;> rfl
          · rintro rfl
            rw [hst] at hm
            rcases List.mem_cons.1 hm with h | h
            · cases h; rcases hg with hg | hg | ⟨e, hg⟩ <;> cases hg
            · exact h
        · exact .inr (.inr (failed_mono hr hs hc h))
      | last i q h0 h1 h2 h3 h4 =>
        obtain ⟨b, rfl⟩ := h4
        refine ⟨fun _ _ => ⟨i, .inr (.inl ⟨t, _, .inr (.inl rfl), by rw [hact.1]; simp⟩)⟩, ?_, ?_⟩
        · rw [ha', h1]; intro h; cases h
        · rw [ha', h1]; intro h; cases h
      | one i q h0 h1 h2 h3 h4 =>
        refine ⟨fun _ e => absurd e h4, ?_, ?_⟩
        · rw [ha', h1]; intro h; cases h
        · rw [ha', h1]; intro h; cases h

theorem J.reach (hr : WR U u0 f0 s) : ∀ c < s.data.ad.nctx, (s.data.ad.ctx c).total ≠ 0 → J s c := by
  refine Reach.induct (fun s : WSt α φ δ => ∀ c < s.data.ad.nctx, (s.data.ad.ctx c).total ≠ 0 → J s c) ?_ ?_ hr
  · intro c hc; exact absurd hc (Nat.not_lt_zero _)
  · intro s l s' hr ih hs c hc ht
    cases l with
    | tick n => rw [step_tick _ s s' n hs] at hc ht ⊢; exact ⟨(ih c hc ht).all, (ih c hc ht).pset, (ih c hc ht).any⟩
    | th t ch =>
      by_cases hc0 : c < s.data.ad.nctx
      · exact (ih c hc0 (by rw [← (gr_step hr hs).total hc0]; exact ht)).step hr hs hc0 (by rw [← (gr_step hr hs).total hc0]; exact ht)
      · have key : (s'.data.ad.ctx c).ready = 0 ∧ (s'.data.ad.ctx c).pset = false ∧ (s'.data.ad.ctx c).done = [] := by
          cases mv hr hs with
          | app x rest a he hst hd hact hA =>
            obtain ⟨ch', hA⟩ := hA
            generalize s'.data.ad = ad' at hA hc
            cases when_wc hA with
            | usr g u wa hU => exact absurd hc hc0
            | wh f d' a hf' hW => exact ws_new hW hc0 hc
          | sync f rest a he hst hS hact had => rw [had] at hc; exact absurd hc hc0
          | hand e f f' rest he hst hn' hf hst' he' hd had => rw [had] at hc; exact absurd hc hc0
          | drop e f rest he hst hn' hf hst' he' hd had => rw [had] at hc; exact absurd hc hc0
          | core f rest pre hst hpre hst' hd had => rw [had] at hc; exact absurd hc hc0
          | still hst' he' hd had => rw [had] at hc; exact absurd hc hc0
        refine ⟨fun _ h => absurd (h.symm.trans key.1) ht, fun _ h => ?_, fun _ _ i hi => ?_⟩
        · rw [key.2.1] at h; cases h
        · rw [key.2.2] at hi; cases hi

end
end When
end Itc
