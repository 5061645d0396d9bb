import Verif.Core.Gen

/-!
# Invariants of the frame on top of each stack (proof infrastructure, no claims)
-/
namespace Itc
namespace Core
section
variable {τ φ δ χ : Type}

/-- A step changes nothing visible of another thread that has a stack. -/
theorem step_thr_other {C : Client τ φ δ χ} {s s' : St τ φ δ} {t u : Nat} {ch : Ch χ} (hfree : FreeOK s) (hu : u ≠ t)
    (hne : s.stk u ≠ []) (hs : step C s (.th t ch) = some s') :
    (s'.thr u).stack = (s.thr u).stack ∧ (s'.thr u).rv = (s.thr u).rv ∧ (s'.thr u).exc = (s.thr u).exc ∧
      (s'.thr u).loc = (s.thr u).loc := by
  simp only [step] at hs
  split at hs
  · contradiction
  split at hs
  · contradiction
  rename_i hrun
  have hrun : (s.thr t).status = .running := by simpa using hrun
  split at hs
  · obtain rfl := Option.some.inj hs
    unfold stepExc
    repeat' split
    all_goals first | exact ⟨rfl, rfl, rfl, rfl⟩ | (simp [St.setStk, upd_ne _ _ hu])
  · split at hs
    · obtain rfl := Option.some.inj hs
      simp [stepEnd, upd_ne _ _ hu]
    · rcases stepCore_thr C s s' t _ _ ch hrun hs with ⟨x, h, -⟩ | ⟨n, f, hn, h⟩ | ⟨n, hn, h⟩ | ⟨n, hn, h⟩
      · rw [h, upd_ne _ _ hu]; exact ⟨rfl, rfl, rfl, rfl⟩
      · have : u ≠ n := by
          rintro rfl; exact hne (hfree u (by simp [hn])).1
        rw [h, upd_ne _ _ hu, upd_ne _ _ this]; exact ⟨rfl, rfl, rfl, rfl⟩
      · rw [h, upd_ne _ _ hu]
        by_cases hn : u = n
        · subst hn; simp
        · rw [upd_ne _ _ hn]; exact ⟨rfl, rfl, rfl, rfl⟩
      · rw [h, upd_ne _ _ hu]
        by_cases hn : u = n
        · subst hn; simp
        · rw [upd_ne _ _ hn]; exact ⟨rfl, rfl, rfl, rfl⟩
    · simp only [stepClient] at hs
      split at hs
      · contradiction
      · split at hs <;> obtain rfl := Option.some.inj hs
        all_goals first | exact ⟨rfl, rfl, rfl, rfl⟩ | (simp [St.setStk, upd_ne _ _ hu])

/-- Code stored in core frames and the log callback satisfies `P`. -/
structure Codes (P : φ → Prop) (s : St τ φ δ) : Prop where
  code : ∀ t f, .core f ∈ s.stk t → CFOK (fun _ g => P g) (fun _ => True) f
  cb : ∀ f, s.logCb = some f → P f

theorem Codes.reach {C : Client τ φ δ χ} {P : φ → Prop}
    (api : ∀ {v d f rv ch d' a k}, C.step v d f rv ch = some (d', .call a k) → ApiOK (fun _ g => P g) (fun _ => True) a)
    {d : δ} {f : φ} {s : St τ φ δ} (h : Reach C d f s) : Codes P s := by
  refine Reach.induct (Codes P) ?_ ?_ h
  · refine ⟨?_, ?_⟩
    · intro t g hg
      by_cases ht : t = 0
      · subst ht; simp [Core.init, St.stk] at hg
      · simp [Core.init, St.stk, upd_ne _ _ ht] at hg
    · intro f hf; simp [Core.init] at hf
  · intro s l s' hr q hs
    cases l with
    | tick n => rw [step_tick C s s' n hs]; exact ⟨q.code, q.cb⟩
    | th t ch =>
      refine ⟨?_, ?_⟩
      · intro u g hg
        by_cases hu : u = t
        · subst hu
          have same : .core g ∈ s.stk u → CFOK (fun _ g => P g) (fun _ => True) g := q.code u g
          rcases step_cl hs with ⟨f, rest, d', a, hexc, hold, hstep, hdata, hact, -⟩ | ⟨f, rest, hexc, hold, hcs, hdata, -⟩ | ⟨e, hexc, hst, -, -, hdata, -⟩ |
            ⟨e, f, k, rest, hexc, hold, hf, hst, hexc', hdata, -⟩ | ⟨e, f, rest, hexc, hold, hf, hst, -, hdata, -⟩ |
            ⟨e, g0, g', rest, hexc, hold, hg0, hst, hexc', hdata, -⟩ | ⟨e, g0, rest, hexc, hold, hg0, hst, -, hdata, -⟩ | ⟨hold, hst, hexc', hdata, -⟩
          · have hrest : .core g ∈ rest → CFOK (fun _ g => P g) (fun _ => True) g := fun h => same (by rw [hold]; simp [h])
            cases a <;> simp only [ActTo] at hact <;> rw [hact.1] at hg
            · exact hrest (by simpa using hg)
            · exact hrest (by simpa using hg)
            · simp only [List.mem_cons, Frame.core.injEq, reduceCtorEq, false_or] at hg
              rcases hg with rfl | hg
              · exact (api hstep).entry
              · exact hrest hg
            · exact hrest hg
            · exact hrest hg
            · exact same hg
          · have hrest : .core g ∈ rest → CFOK (fun _ g => P g) (fun _ => True) g := fun h => same (by rw [hold]; simp [h])
            have q1 := q.code u f (by rw [hold]; simp)
            rcases hcs with ⟨new, h, hst, -⟩ | ⟨v, -, hst, -⟩ | ⟨e, -, hst, -⟩ | ⟨-, hst, -⟩
            · rw [hst] at hg
              rcases List.mem_append.1 hg with hg | hg
              · cases h <;> simp only [List.mem_cons, List.not_mem_nil, or_false, Frame.core.injEq, reduceCtorEq, false_or] at hg <;>
                  simp only [CFOK] at q1 <;> (try rcases hg with rfl | rfl) <;> simp only [CFOK, implies_true] <;> try exact q1
              · exact hrest hg
            · exact hrest (hst ▸ hg)
            · exact hrest (hst ▸ hg)
            · exact same (hst ▸ hg)
          · exact same (hst ▸ hg)
          · rw [hst] at hg
            simp only [List.mem_cons, Frame.core.injEq, reduceCtorEq, false_or] at hg
            rcases hg with rfl | hg
            · trivial
            · exact same (by rw [hold]; simp [hg])
          · exact same (by rw [hold]; rw [hst] at hg; simp [hg])
          · exact same (by rw [hold]; rw [hst] at hg; simpa using hg)
          · exact same (by rw [hold]; rw [hst] at hg; simp [hg])
          · rw [hst] at hg; simp at hg
        · rcases hr.stk_oth hu hs with ⟨h, -⟩ | ⟨f, rest, h, -, h4, h5, -⟩
          · exact q.code u g (by rw [← h]; exact hg)
          · rw [h5] at hg; simp at hg
      · intro f hf
        rcases stepLogCb hs with h | h | ⟨rest, h⟩
        · exact q.cb f (by rw [← h]; exact hf)
        · rw [h] at hf; contradiction
        · have := q.code t (.initCfg s'.logCb) (by rw [h]; simp)
          exact this f hf 0

/-- What the invariant requires of the result of an action. -/
def TopAct {C : Client τ φ δ χ} {J : St τ φ δ → Prop} (S : Stacking C J) (P : δ → Nat → φ → Val → Prop) (d' : δ) (t : Nat) (f : φ)
    (rest : List (Frame τ φ)) (rv : Val) : Act τ φ → Prop
  | .goto g => P d' t g rv
  | .push g _ => P d' t g rv
  | .ret v => ∀ l rest', rest = .client l :: rest' → S.Adj (.client l) (.client f) → P d' t l v
  | .terminate => P d' t f rv
  | _ => True

/-- A fact `P` about the client frame on top of each stack, given an invariant `I` of the data. -/
structure TopInv (C : Client τ φ δ χ) (J : St τ φ δ → Prop) (S : Stacking C J) where
  I : δ → Prop
  P : δ → Nat → φ → Val → Prop
  triv : φ → Prop
  triv_ok : ∀ {d t f v}, triv f → P d t f v
  run : ∀ k, triv (C.run k)
  destroy : ∀ k, triv (C.destroy k)
  code : ∀ {s}, J s → Codes triv s
  step : ∀ {s : St τ φ δ} {t : Nat} {ch : Ch χ} {f : φ} {rest : List (Frame τ φ)} {d' : δ} {a : Act τ φ}, J s → I s.data →
    (s.thr t).exc = none → s.stk t = .client f :: rest → P s.data t f (s.thr t).rv →
    C.step (s.view t) s.data f (s.thr t).rv ch = some (d', a) → I d' ∧
    (∀ u g r v, u ≠ t → s.stk u = .client g :: r → P s.data u g v → P d' u g v) ∧ TopAct S P d' t f rest (s.thr t).rv a
  core : ∀ {s : St τ φ δ} {t : Nat} {f : CF τ φ} {l : φ} {rest : List (Frame τ φ)} {v : Val}, J s → I s.data →
    s.stk t = .core f :: .client l :: rest → S.Adj (.client l) (.core f) → f.popV v → P s.data t l v
  handler : ∀ {s : St τ φ δ} {t : Nat} {f : φ} {rest : List (Frame τ φ)} {e : Exn} {f' : φ}, J s → I s.data →
    s.stk t = .client f :: rest → (s.thr t).exc = some e → C.onThrow f e = some f' → P s.data t f' (.exn e)

theorem stepCore_rvexc {C : Client τ φ δ χ} {s s' : St τ φ δ} {t : Nat} {e : Exn} {g g' : φ} {rest : List (Frame τ φ)} {ch : Ch χ}
    (hs : step C s (.th t ch) = some s') (he : (s.thr t).exc = some e) (hst : s.stk t = .client g :: rest)
    (hg : C.onThrow g e = some g') : (s'.thr t).rv = .exn e := by
  simp only [step] at hs
  split at hs
  · contradiction
  split at hs
  · contradiction
  simp only [he] at hs
  obtain rfl := Option.some.inj hs
  have hst : (s.thr t).stack = .client g :: rest := hst
  simp [hst, stepExc, hg]

theorem TopInv.sound {C : Client τ φ δ χ} {J : St τ φ δ → Prop} {S : Stacking C J} (T : TopInv C J S) {d : δ} {f : φ}
    (hJ : ∀ s, Reach C d f s → J s) (hd : T.I d) (hf : T.triv f) {s : St τ φ δ} (h : Reach C d f s) :
    T.I s.data ∧ ∀ t f rest, s.stk t = .client f :: rest → (s.thr t).exc = none → T.P s.data t f (s.thr t).rv := by
  refine Reach.induct (fun s => T.I s.data ∧ ∀ t f rest, s.stk t = .client f :: rest → (s.thr t).exc = none → T.P s.data t f (s.thr t).rv) ?_ ?_ h
  · refine ⟨hd, ?_⟩
    intro t g rest hg _
    by_cases ht : t = 0
    · subst ht; simp [Core.init, St.stk] at hg; rw [← hg.1]; exact T.triv_ok hf
    · simp [Core.init, St.stk, upd_ne _ _ ht] at hg
  · intro s l s' hr ⟨qi, q⟩ hs
    cases l with
    | tick n => rw [step_tick C s s' n hs]; exact ⟨qi, q⟩
    | th t ch =>
      have hj := hJ s hr
      have hj' := hJ s' (hr.step hs)
      have hok := S.sound hJ hr
      have hI : T.I s'.data := by
        rcases step_cl hs with ⟨f, rest, d', a, hexc', hold, hstep, hdata, hact, -⟩ | ⟨f, rest, hexc', hold, hcs, hdata, -⟩ | ⟨e, hexc', hst', -, he', hdata, -⟩ |
          ⟨e, f, k, rest, hexc', hold, hf, hst', he', hdata, -⟩ | ⟨e, f, rest, hexc', hold, hf, hst', he', hdata, -⟩ |
          ⟨e, g', g'', rest, hexc', hold, hg, hst', he', hdata, -⟩ | ⟨e, g', rest, hexc', hold, hg, hst', he', hdata, -⟩ | ⟨hold, hst', he', hdata, -⟩
        · rw [hdata]; exact (T.step hj qi hexc' hold (q t f rest hold hexc') hstep).1
        all_goals rw [hdata]; exact qi
      refine ⟨hI, ?_⟩
      intro u g r hst hexc
      by_cases hu : u = t
      · subst hu
        rcases step_cl hs with ⟨f, rest, d', a, hexc', hold, hstep, hdata, hact, -⟩ | ⟨f, rest, hexc', hold, hcs, hdata, -⟩ | ⟨e, hexc', hst', -, he', hdata, -⟩ |
          ⟨e, f, k, rest, hexc', hold, hf, hst', he', hdata, -⟩ | ⟨e, f, rest, hexc', hold, hf, hst', he', hdata, -⟩ |
          ⟨e, g', g'', rest, hexc', hold, hg, hst', he', hdata, -⟩ | ⟨e, g', rest, hexc', hold, hg, hst', he', hdata, -⟩ | ⟨hold, hst', he', hdata, -⟩
        · have h1 := (T.step hj qi hexc' hold (q u f rest hold hexc') hstep).2.2
          have hch := hok.chain u
          rw [hold] at hch
          rw [hdata]
          cases a <;> simp only [ActTo] at hact <;> simp only [TopAct] at h1
          · rw [hact.1] at hst; cases hst; rw [hact.2.2]; exact h1
          · rw [hact.1] at hst; cases hst; rw [hact.2.2]; exact h1
          · rw [hact.1] at hst; cases hst
          · rw [hact.1] at hst; subst hst; rw [hact.2.2]; exact h1 _ _ rfl hch.1
          · rw [hact.2] at hexc; contradiction
          · rw [hact.1, hold] at hst; cases hst
            have : (s'.thr u).rv = (s.thr u).rv := by
              have h0 := hs
              simp only [Core.step] at h0
              split at h0
              · contradiction
              split at h0
              · contradiction
              simp only [hexc'] at h0
              have hold' := hold
              simp only [St.stk] at hold'
              simp only [hold', stepClient, hstep] at h0
              obtain rfl := Option.some.inj h0
              rfl
            rw [this]; exact h1
        · rw [hdata]
          have hch := hok.chain u
          rw [hold] at hch
          rcases hcs with ⟨new, h, hst', -⟩ | ⟨v, hv, hst', hrv, -⟩ | ⟨e, -, -, he⟩ | ⟨-, hst', -⟩
          · rw [hst'] at hst
            have hcd := T.code hj
            have hco := hcd.code u f (by rw [hold]; simp)
            cases h <;> simp only [List.cons_append, List.nil_append, List.cons.injEq, reduceCtorEq, false_and, Frame.client.injEq] at hst <;>
              (try obtain ⟨rfl, -⟩ := hst) <;> first
              | exact T.triv_ok (T.run _)
              | exact T.triv_ok (T.destroy _)
              | exact T.triv_ok (hcd.cb _ ‹_›)
              | exact T.triv_ok (hco _ rfl 0)
          · rw [hst'] at hst; subst hst; rw [hrv]; exact T.core hj qi hold hch.1 hv
          · rw [he] at hexc; contradiction
          · rw [hst', hold] at hst; cases hst
        · rw [he'] at hexc; contradiction
        · rw [hst'] at hst; cases hst; exact T.triv_ok (T.destroy _)
        · rw [he'] at hexc; contradiction
        · rw [hst'] at hst; cases hst; rw [hdata, stepCore_rvexc hs hexc' hold hg]; exact T.handler hj qi hold hexc' hg
        · rw [he'] at hexc; contradiction
        · rw [hst'] at hst; contradiction
      · by_cases hne : s.stk u = []
        · rcases hr.stk_oth hu hs with ⟨h, -⟩ | ⟨f, rest, h, -, h4, h5, -⟩
          · rw [h, hne] at hst; contradiction
          · rw [h5] at hst; cases hst
            have := (T.code hj).code t (.spawnIn u g) (by rw [h]; simp)
            exact T.triv_ok (this u)
        · obtain ⟨h1, h2, h3, -⟩ := step_thr_other (FreeOK.reach hr) hu hne hs
          have hst0 : s.stk u = .client g :: r := by rw [← hst]; exact h1.symm
          have hp := q u g r hst0 (by rw [← h3]; exact hexc)
          rw [h2]
          rcases step_cl hs with ⟨f, rest, d', a, hexc', hold, hstep, hdata, hact, -⟩ | ⟨f, rest, hexc', hold, hcs, hdata, -⟩ | ⟨e, hexc', hst', -, he', hdata, -⟩ |
            ⟨e, f, k, rest, hexc', hold, hf, hst', he', hdata, -⟩ | ⟨e, f, rest, hexc', hold, hf, hst', he', hdata, -⟩ |
            ⟨e, g', g'', rest, hexc', hold, hg, hst', he', hdata, -⟩ | ⟨e, g', rest, hexc', hold, hg, hst', he', hdata, -⟩ | ⟨hold, hst', he', hdata, -⟩
          · rw [hdata]; exact (T.step hj qi hexc' hold (q t f rest hold hexc') hstep).2.1 u g r _ hu hst0 hp
          all_goals rw [hdata]; exact hp

end
end Core
end Itc
