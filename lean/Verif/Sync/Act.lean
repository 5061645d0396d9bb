import Verif.Sync.Base
import Verif.Props.Wait

/-!
# Induction along one call of a function of the layer (proof infrastructure, no claims)
-/
namespace Itc
namespace Sync
open Core
section
variable {α τ φ δ χ : Type}

theorem step_live {A : App α φ δ χ} {s s' : SSt α φ δ} {l : Lbl χ} (hs : Core.step (client A) s l = some s') : s.term = false := by
  by_contra h
  simp only [Bool.not_eq_false] at h
  cases l <;> simp [Core.step, h] at hs

/-- `Frag.ind` for calls of functions of this layer. -/
theorem SFrag.ind {A : App α φ δ χ} {ad : δ} {i0 : φ} {s0 s : SSt α φ δ} {t n : Nat} {rest : List (Fr α φ)} {f0 : SFrame α φ}
    (Φ : SFrame α φ → SSt α φ δ → Prop) (hr : SR A ad i0 s0) (h0 : s0.stk t = .client f0 :: rest) (hΦ : Φ f0 s0)
    (noapp : ∀ g s, ¬ Φ (.app g) s)
    (own : ∀ {s1 s2 : SSt α φ δ} {f g : SFrame α φ} {d' : SData α} {a : Act (STask α) (SFrame α φ)} {ch : Ch χ}, SR A ad i0 s1 →
      s1.stk t = .client f :: rest → (s1.thr t).exc = none → Φ f s1 → SS A.run A.destroy (s1.view t) s1.data.sd (s1.thr t).rv f d' a →
      a.cont = some g → s2.data.sd = d' → Core.step (client A) s1 (.th t ch) = some s2 → s2.clock = s1.clock →
      s2.stk t = (match a.callee with | some u => [u] | none => []) ++ .client g :: rest → Φ g s2)
    (hdl : ∀ {s1 s2 : SSt α φ δ} {f g : SFrame α φ} {e : Exn}, SR A ad i0 s1 → s1.stk t = .client f :: rest → (s1.thr t).exc = some e →
      Φ f s1 → ¬ nt (α := α) (.client f) → sThrow A.onThrow f e = some g → s2.data = s1.data → Φ g s2)
    (env : ∀ {s1 s2 : SSt α φ δ} {f : SFrame α φ} {l : Lbl χ}, SR A ad i0 s1 → Φ f s1 → Core.step (client A) s1 l = some s2 →
      (∃ pre, s1.stk t = pre ++ .client f :: rest) → (∃ pre, s2.stk t = pre ++ .client f :: rest) →
      (s1.stk t = .client f :: rest → ∀ ch, l ≠ .th t ch) → Φ f s2)
    (h : Frag (client A) t rest s0 n s) : ∃ pre f, s.stk t = pre ++ .client f :: rest ∧ (s.term = true ∨ Φ f s) := by
  suffices hh : ∃ pre f', s.stk t = pre ++ f' :: rest ∧ ∃ g, f' = .client g ∧ (s.term = true ∨ Φ g s) by
    obtain ⟨pre, f, h1, g, rfl, h3⟩ := hh
    exact ⟨pre, g, h1, h3⟩
  refine Frag.ind' (fun _ f s => ∃ g, f = .client g ∧ (s.term = true ∨ Φ g s)) hr
    (fun f h => ⟨f0, by rw [h0] at h; exact (List.cons.inj h).1.symm, .inr hΦ⟩) ?_ ?_ h
  · intro s1 n f1 ch s2 pre f2 hr1 h1 ⟨g, hg, hp⟩ hs h2
    subst hg
    have hp : Φ g s1 := hp.resolve_left (by rw [step_live hs]; simp)
    have key : ∃ x, f2 = .client x ∧ (s2.term = true ∨ Φ x s2) := by
      have uniq : ∀ {p : List (Fr α φ)} {x}, s2.stk t = p ++ x :: rest → f2 = x := fun h => (top_uniq (h2.symm.trans h)).2
      have nope : s2.stk t = rest → False := fun h => top_ne (h.symm.trans h2)
      have hok := stk_ok hr1
      rcases step_cl hs with ⟨f, rest', d', a, hexc, hold, hstep, hdata, hact, -, -, -, -, -, hck⟩ | ⟨f, rest', hexc, hold, hcs, hdata, -⟩ |
        ⟨e, hexc, hst, hterm, -, hdata, -⟩ |
        ⟨e, f, k, rest', hexc, hold, hf, hst, hexc', hdata, -⟩ | ⟨e, f, rest', hexc, hold, hf, hst, -, hdata, -⟩ |
        ⟨e, g', g'', rest', hexc, hold, hg, hst, hexc', hdata, -⟩ | ⟨e, g', rest', hexc, hold, hg, hst, -, hdata, -⟩ | ⟨hold, hst, hexc', hdata, -⟩
      · rw [h1] at hold
        cases hold
        cases client_cs hstep with
        | app g' ad' sa hA => exact absurd hp (noapp _ _)
        | sync f sd a hS =>
          have cl := fun {x} (h : a.cont = some x) => own hr1 h1 hexc hp hS h (by rw [hdata]) hs hck
          cases a <;> simp only [ActTo] at hact
          · exact ⟨_, uniq (p := []) hact.1, .inr (cl rfl hact.1)⟩
          · exact ⟨_, uniq (p := [_]) hact.1, .inr (cl rfl hact.1)⟩
          · exact ⟨_, uniq (p := [_]) hact.1, .inr (cl rfl hact.1)⟩
          · exact (nope hact.1).elim
          · exact (nope hact.1).elim
          · exact ⟨_, uniq (p := []) (hact.1.trans h1), .inl hact.2.1⟩
      · rw [h1] at hold; cases hold
      · exact ⟨_, uniq (p := []) (hst.trans h1), .inl hterm⟩
      · rw [h1] at hold; cases hold
      · rw [h1] at hold; cases hold
      · rw [h1] at hold; cases hold
        exact ⟨_, uniq (p := []) hst, .inr (hdl hr1 h1 hexc hp (hok.exc t _ _ (by simp [hexc]) h1) hg hdata)⟩
      · rw [h1] at hold; cases hold
        exact (nope hst).elim
      · rw [h1] at hold; cases hold
    exact ⟨fun _ => key, fun _ => key⟩
  · rintro s1 n f1 l s2 hr1 ⟨g, rfl, hp⟩ hs h1 h2 h3
    exact ⟨g, rfl, .inr (env hr1 (hp.resolve_left (by rw [step_live hs]; simp)) hs h1 h2 h3)⟩

/-- The last step of a call. -/
inductive Last (A : App α φ δ χ) (s s' : SSt α φ δ) (t : Nat) (f : SFrame α φ) : Prop
  | ret (v : Val) (d' : SData α) (hexc : (s.thr t).exc = none) (hS : SS A.run A.destroy (s.view t) s.data.sd (s.thr t).rv f d' (.ret v))
      (hdata : s'.data.sd = d') (hexc' : (s'.thr t).exc = none) (hrv : (s'.thr t).rv = v)
  | throw (e : Exn) (d' : SData α) (hexc : (s.thr t).exc = none) (hS : SS A.run A.destroy (s.view t) s.data.sd (s.thr t).rv f d' (.throw e))
      (hdata : s'.data.sd = d') (hexc' : (s'.thr t).exc = some e)
  | unwind (e : Exn) (hexc : (s.thr t).exc = some e) (hnt : ¬ nt (α := α) (.client f)) (hf : sThrow A.onThrow f e = none) (hdata : s'.data = s.data)
      (hexc' : (s'.thr t).exc = some e)

theorem SFrag.last {A : App α φ δ χ} {ad : δ} {i0 : φ} {s s' : SSt α φ δ} {t : Nat} {pre rest : List (Fr α φ)} {f : SFrame α φ} {l : Lbl χ}
    (hr : SR A ad i0 s) (hst : s.stk t = pre ++ .client f :: rest) (hs : Core.step (client A) s l = some s') (hend : s'.stk t = rest)
    (hf : ∀ g, f ≠ .app g) : pre = [] ∧ Last A s s' t f ∧ ∃ ch, l = .th t ch := by
  obtain ⟨rfl, ch, rfl⟩ := Frag.last (n := 0) hr hst hs hend
  refine ⟨rfl, ?_, ch, rfl⟩
  simp only [List.nil_append] at hst
  have nope : ∀ {p : List (Fr α φ)} {x}, s'.stk t = p ++ x :: rest → False := fun h => top_ne (hend.symm.trans h)
  have hok := stk_ok hr
  rcases step_cl hs with ⟨f, rest', d', a, hexc, hold, hstep, hdata, hact, -⟩ | ⟨f, rest', hexc, hold, hcs, hdata, -⟩ | ⟨e, hexc, hst', -, -, hdata, -⟩ |
    ⟨e, f, k, rest', hexc, hold, hf, hst', hexc', hdata, -⟩ | ⟨e, f, rest', hexc, hold, hf, hst', -, hdata, -⟩ |
    ⟨e, g', g'', rest', hexc, hold, hg, hst', hexc', hdata, -⟩ | ⟨e, g', rest', hexc, hold, hg, hst', hexc', hdata, -⟩ | ⟨hold, hst', hexc', hdata, -⟩
  · rw [hst] at hold
    cases hold
    cases client_cs hstep with
    | app g' ad' sa hA => exact absurd rfl (hf g')
    | sync f sd a hS =>
      cases a <;> simp only [ActTo] at hact
      · exact (nope (p := []) hact.1).elim
      · exact (nope (p := [_]) hact.1).elim
      · exact (nope (p := [_]) hact.1).elim
      · exact .ret _ _ hexc hS (by rw [hdata]) hact.2.1 hact.2.2
      · exact .throw _ _ hexc hS (by rw [hdata]) hact.2
      · exact (nope (p := []) (hact.1.trans hst)).elim
  · rw [hst] at hold; cases hold
  · exact (nope (p := []) (hst'.trans hst)).elim
  · rw [hst] at hold; cases hold
  · rw [hst] at hold; cases hold
  · rw [hst] at hold; cases hold
    exact (nope (p := []) hst').elim
  · rw [hst] at hold; cases hold
    exact .unwind e hexc (hok.exc t _ _ (by simp [hexc]) hst) hg hdata hexc'
  · rw [hst] at hold; cases hold

/-- A step of somebody else. -/
theorem still {A : App α φ δ χ} {ad : δ} {i0 : φ} {s s' : SSt α φ δ} {l : Lbl χ} (hr : SR A ad i0 s) {t : Nat} (hne : s.stk t ≠ [])
    (hs : Core.step (client A) s l = some s') (hl : ∀ ch, l ≠ .th t ch) : s'.stk t = s.stk t ∧ (s'.thr t).rv = (s.thr t).rv ∧
      (s'.thr t).exc = (s.thr t).exc ∧ (s'.thr t).loc = (s.thr t).loc ∧ (s.notified t = true → s'.notified t = true) := by
  cases l with
  | tick n => rw [step_tick _ s s' n hs]; exact ⟨rfl, rfl, rfl, rfl, id⟩
  | th u ch =>
    have hu : t ≠ u := by rintro rfl; exact hl ch rfl
    obtain ⟨h1, h2, h3, h4⟩ := step_thr_other (FreeOK.reach hr) hu hne hs
    refine ⟨h1, h2, h3, h4, ?_⟩
    simp only [St.notified, h4]
    split
    · exact id
    · intro h
      rw [(QInv.reach hr).exit] at h
      rw [(QInv.reach (hr.step hs)).exit]
      exact log_mono (step_eff (client A) s s' u ch hs) _ h

/-- A step of the layer or the application does not touch the thread's context. -/
theorem own_notified {A : App α φ δ χ} {s s' : SSt α φ δ} {t : Nat} {ch : Ch χ} {f : SFrame α φ} {rest : List (Fr α φ)}
    (hst : s.stk t = .client f :: rest) (hs : Core.step (client A) s (.th t ch) = some s') (he : (s.thr t).exc = none) :
    s'.notified t = s.notified t ∧ (s'.thr t).loc = (s.thr t).loc ∧ s'.ctxs = s.ctxs ∧ s'.clock = s.clock := by
  rcases step_cl hs with ⟨f, rest', d', a, hexc, hold, hstep, hdata, hact, hlog, hctx, hcb, hloc, -, hck⟩ | ⟨f, rest, hexc, hold, hcs, hdata, -⟩ | ⟨e, hexc, -⟩ |
    ⟨e, f, k, rest, hexc, hold, -⟩ | ⟨e, f, rest, hexc, hold, -⟩ | ⟨e, g, g', rest, hexc, hold, -⟩ | ⟨e, g, rest, hexc, hold, -⟩ | ⟨hold, -⟩
  · have hl : (s'.thr t).loc = (s.thr t).loc := congrFun hloc t
    exact ⟨by simp only [St.notified, hl, hctx], hl, hctx, hck⟩
  · rw [hst] at hold; cases hold
  all_goals first
    | (rw [he] at hexc; cases hexc; done)
    | (rw [hst] at hold; cases hold; done)

/-- A step of a thread with a frame of this layer on top, outside exception handling. -/
theorem own_ss {A : App α φ δ χ} {s s' : SSt α φ δ} {t : Nat} {ch : Ch χ} {f : SFrame α φ} {rest : List (Fr α φ)}
    (hst : s.stk t = .client f :: rest) (hs : Core.step (client A) s (.th t ch) = some s') (he : (s.thr t).exc = none) (hf : ∀ g, f ≠ .app g) :
    ∃ a, SS A.run A.destroy (s.view t) s.data.sd (s.thr t).rv f s'.data.sd a ∧ ActTo s s' t rest a := by
  rcases step_cl hs with ⟨f, rest', d', a, hexc, hold, hstep, hdata, hact, hlog, hctx, hcb, hloc, -, hck⟩ | ⟨f, rest, hexc, hold, hcs, hdata, -⟩ | ⟨e, hexc, -⟩ |
    ⟨e, f, k, rest, hexc, hold, -⟩ | ⟨e, f, rest, hexc, hold, -⟩ | ⟨e, g, g', rest, hexc, hold, -⟩ | ⟨e, g, rest, hexc, hold, -⟩ | ⟨hold, -⟩
  · rw [hst] at hold
    cases hold
    cases client_cs hstep with
    | app g' ad' sa hA => exact absurd rfl (hf _)
    | sync f sd a hS => exact ⟨a, by rw [hdata]; exact hS, hact⟩
  · rw [hst] at hold; cases hold
  all_goals first
    | (rw [he] at hexc; cases hexc; done)
    | (rw [hst] at hold; cases hold; done)

theorem nt_exc {A : App α φ δ χ} {ad : δ} {i0 : φ} {s : SSt α φ δ} {t : Nat} {f : Fr α φ} {rest : List (Fr α φ)} (hr : SR A ad i0 s)
    (hst : s.stk t = f :: rest) (hf : nt f) : (s.thr t).exc = none := by
  by_contra h
  exact (stk_ok hr).exc t _ _ h hst hf

theorem _root_.Itc.Core.Frag.active {C : Client τ φ δ χ} {t n : Nat} {rest : List (Frame τ φ)} {s s1 : St τ φ δ}
    (h : Frag C t rest s n s1) : ∃ pre f, s1.stk t = pre ++ f :: rest := by
  cases h with
  | here f h => exact ⟨[], f, h⟩
  | next l pre f _ _ h _ => exact ⟨pre, f, h⟩
  | start l pre f _ _ h _ _ _ _ => exact ⟨pre, f, h⟩

/-- A call nested in a call: either it goes on or it has ended. -/
theorem Frag.inner {C : Client τ φ δ χ} {t n : Nat} {rest : List (Frame τ φ)} {g : Frame τ φ} {s s1 s2 : St τ φ δ} {l : Lbl χ}
    (h : Frag C t (g :: rest) s n s1) (hs : step C s1 l = some s2) (hst : ∃ pre, s2.stk t = pre ++ g :: rest) :
    (∃ m, Frag C t (g :: rest) s m s2) ∨ s2.stk t = g :: rest := by
  obtain ⟨pre, hst⟩ := hst
  rcases List.eq_nil_or_concat pre with rfl | ⟨pre, x, rfl⟩
  · exact .inr hst
  · exact .inl (Frag.snoc h hs (pre := pre) (f := x) (by simpa using hst))

/-- The data of the layer changes only by its own steps. -/
theorem step_sd {A : App α φ δ χ} {s s' : SSt α φ δ} {l : Lbl χ} (hs : Core.step (client A) s l = some s') :
    s'.data.sd = s.data.sd ∨ ∃ t ch f rest a, l = .th t ch ∧ (s.thr t).exc = none ∧ s.stk t = .client f :: rest ∧
      SS A.run A.destroy (s.view t) s.data.sd (s.thr t).rv f s'.data.sd a := by
  cases l with
  | tick n => rw [step_tick _ s s' n hs]; exact .inl rfl
  | th t ch =>
    rcases step_cl hs with ⟨f, rest, d', a, hexc, hold, hstep, hdata, hact, -⟩ | ⟨f, rest, hexc, hold, hcs, hdata, -⟩ | ⟨e, hexc, hst, -, -, hdata, -⟩ |
      ⟨e, f, k, rest, hexc, hold, hf, hst, hexc', hdata, -⟩ | ⟨e, f, rest, hexc, hold, hf, hst, -, hdata, -⟩ |
      ⟨e, g, g', rest, hexc, hold, hg, hst, hexc', hdata, -⟩ | ⟨e, g, rest, hexc, hold, hg, hst, -, hdata, -⟩ | ⟨hold, hst, hexc', hdata, -⟩
    · cases client_cs hstep with
      | app g ad sa hA => rw [hdata]; exact .inl rfl
      | sync f sd a hS => exact .inr ⟨t, ch, f, rest, a, rfl, hexc, hold, by rw [hdata]; exact hS⟩
    all_goals rw [hdata]; exact .inl rfl

end
end Sync
end Itc
