import Verif.Props.Live
import Verif.Props.Outcome
import Verif.Sync.Asy

/-!
# A packaged task that a thread has started (proof infrastructure, no claims)
-/
namespace Itc
namespace Sync
open Core
section
variable {α φ δ χ : Type} {A : App α φ δ χ} {ad : δ} {i0 : φ} {s s' : SSt α φ δ} {t p : Nat}

/-- Thread `t` has taken the packaged task of `p` out of its queue and has not destroyed it. -/
def Exe (t p : Nat) (s : SSt α φ δ) : Prop :=
  1 ≤ thw (wts δ φ .O p) s t ∧ ((∃ u, .bodyStart u p ∈ s.data.sd.slog) ∨ ∃ a rest, s.stk t = .client (.ftRun p a) :: rest ∧ (s.thr t).exc = none)

theorem Exe.ne (h : Exe t p s) : s.stk t ≠ [] := fun he => by
  have := h.1
  rw [thw_nil he] at this
  omega

theorem thw_same {W : Wts (STask α) (SFrame α φ) (Data α δ)} (h1 : s'.stk t = s.stk t) (h2 : (s'.thr t).rv = (s.thr t).rv) (h3 : (s'.thr t).exc = (s.thr t).exc) :
    thw W s' t = thw W s t := by
  unfold thw; rw [h1, h2, h3]

theorem Pkg.step {l : Lbl χ} (hs : step (client A) s l = some s') (h : Pkg s.data.sd p) : Pkg s'.data.sd p :=
  ⟨Nat.lt_of_lt_of_le h.1 (step_ext hs).nst, by rw [(step_ext hs).owner h.1]; exact h.2⟩

/-- Where a packaged task that has been called is. -/
theorem called_at (hr : SR A ad i0 s) (hp : Pkg s.data.sd p) {u : Nat} (hb : .bodyStart u p ∈ s.data.sd.slog) :
    (∃ v, .dropped v p ∈ s.data.sd.slog) ∨ ∃ v, 1 ≤ thw (wts δ φ .O p) s v := by
  obtain ⟨N, h1, h2⟩ := lin_ok hr .O p
  obtain ⟨N', h1', h2'⟩ := lin_ok hr .U p
  have h3 : (wts δ φ .O p).inn s.data = 1 := inn_pkg hr hp
  have h3' : (wts δ φ .U p).inn s.data = 1 := inn_pkg hr hp
  have h2 : nsum N (thw (wts δ φ .O p) s) + nsum N (fun c => lsum (ktw 1 p) (s.ctxs c).pend) +
      (1 * CB p s.data.sd.nst s.data.sd.st + lsum (evO .O p) s.data.sd.slog) = (wts δ φ .O p).inn s.data := h2
  have h2' : nsum N' (thw (wts δ φ .U p) s) + nsum N' (fun c => lsum (ktw 1 p) (s.ctxs c).pend) +
      (1 * CB p s.data.sd.nst s.data.sd.st + lsum (evO .U p) s.data.sd.slog) ≤ (wts δ φ .U p).inn s.data := h2'.le
  have hev : 1 ≤ lsum (evO .U p) s.data.sd.slog := Nat.le_trans (by simp [evO, b1]) (lsum_mem hb)
  have hpe : nsum N (fun c => lsum (ktw 1 p) (s.ctxs c).pend) = 0 := by
    by_contra hc
    obtain ⟨c, -, hc⟩ := nsum_pos (Nat.pos_of_ne_zero hc)
    have hcN : c < N' := by
      by_contra hn
      rw [(h1' c (by omega)).2] at hc; simp [lsum] at hc
    have := nsum_le (f := fun c => lsum (ktw 1 p) (s.ctxs c).pend) hcN
    omega
  by_cases ha : 1 ≤ nsum N (thw (wts δ φ .O p) s)
  · obtain ⟨v, -, hv⟩ := nsum_pos ha
    exact .inr ⟨v, hv⟩
  · left
    obtain ⟨e, he, hw⟩ := lsum_pos (w := evO .O p) (l := s.data.sd.slog) (by omega)
    cases e <;> simp only [evO] at hw <;> (try exact absurd hw (by decide))
    obtain rfl := b1_pos hw
    exact ⟨_, he⟩

theorem Exe.step {l : Lbl χ} (hr : SR A ad i0 s) (hs : step (client A) s l = some s') (hp : Pkg s.data.sd p) (h : Exe t p s) :
    (∃ v, .dropped v p ∈ s'.data.sd.slog) ∨ Exe t p s' := by
  by_cases hl : ∃ ch, l = .th t ch
  · obtain ⟨ch, rfl⟩ := hl
    have hb : ∃ u, .bodyStart u p ∈ s'.data.sd.slog := by
      rcases h.2 with ⟨u, hu⟩ | ⟨a, rest, hst, hexc⟩
      · exact ⟨u, (step_ext hs).mem hu⟩
      · exact ⟨t, by rw [(C34_logged hr hst hs).1]; simp⟩
    obtain ⟨u, hu⟩ := hb
    rcases called_at (hr.step hs) (hp.step hs) hu with h1 | ⟨v, hv⟩
    · exact .inl h1
    · by_cases hvt : v = t
      · subst hvt; exact .inr ⟨hv, .inl ⟨u, hu⟩⟩
      · exfalso
        by_cases hne : s.stk v = []
        · rcases hr.stk_oth hvt hs with ⟨h1, -⟩ | ⟨f, rest, -, -, -, h1, h2⟩
          · rw [thw_nil (h1.trans hne)] at hv; omega
          · have hbot := bot_reach (hr.step hs) v
            rw [h1] at hbot
            have hfa : cOnly appFam (.client f : Fr α φ) := botL_app (pre := []) hbot
            rw [stw_none h2, h1] at hv
            cases f <;> simp [topHi, Frame.hi, wts, fw, fx, cOnly, appFam] at hv hfa
        · obtain ⟨h1, h2, h3, -⟩ := step_thr_other (.reach hr) hvt hne hs
          rw [thw_same h1 h2 h3] at hv
          have h4 := (lin_ok hr .O p).le2 hvt
          have h5 : (wts δ φ .O p).inn s.data = 1 := inn_pkg hr hp
          have h6 : thw (wts δ φ .O p) s v + thw (wts δ φ .O p) s t + _ ≤ (wts δ φ .O p).inn s.data := h4
          have := h.1
          omega
  · have hsame := same_step hr hs h.ne fun ch hc => hl ⟨ch, hc⟩
    refine .inr ⟨by rw [thw_same hsame.stk hsame.rv hsame.exc]; exact h.1, ?_⟩
    rcases h.2 with ⟨u, hu⟩ | ⟨a, rest, hst, hexc⟩
    · exact .inl ⟨u, (step_ext hs).mem hu⟩
    · exact .inr ⟨a, rest, hsame.stk.trans hst, hsame.exc.trans hexc⟩

/-- Until it is destroyed, the thread holds it. -/
theorem Exe.run (r : Run (client A)) (hr : SR A ad i0 (r.st 0)) {m m' : Nat} (hm : m ≤ m') (hp : Pkg (r.st m).data.sd p) (h : Exe t p (r.st m)) :
    (∃ v, .dropped v p ∈ (r.st m').data.sd.slog) ∨ Exe t p (r.st m') := by
  obtain ⟨k, rfl⟩ := Nat.exists_eq_add_of_le hm
  have key : Pkg (r.st (m + k)).data.sd p ∧ ((∃ v, .dropped v p ∈ (r.st (m + k)).data.sd.slog) ∨ Exe t p (r.st (m + k))) := by
    clear hm
    induction k with
    | zero => exact ⟨hp, .inr h⟩
    | succ k ih =>
      have hok := r.ok (m + k)
      refine ⟨ih.1.step hok, ?_⟩
      rcases ih.2 with ⟨v, hv⟩ | h1
      · exact .inl ⟨v, (step_ext hok).mem hv⟩
      · exact h1.step (r.reach hr _) hok ih.1
  exact key.2

/-- A packaged task that waits in the queue of a thread that executes its loop is eventually destroyed. -/
theorem fut_done {r : Run (client A)} {c i j : Nat} {g : φ} {rest : List (Fr α φ)} {a : α}
    (h : Loops r { ad := ad } (.app i0) t c (.app g) rest) (hat : AtLoop t c (.app g) rest (r.st i)) (hij : i ≤ j) (hk : .fut p a ∈ ((r.st j).ctxs c).pend)
    (hp : Pkg (r.st j).data.sd p) : ∃ m v, .dropped v p ∈ (r.st m).data.sd.slog := by
  have hr : SR A ad i0 (r.st 0) := h.hr
  have hpk : ∀ m, j ≤ m → Pkg (r.st m).data.sd p := by
    intro m hm
    obtain ⟨k, rfl⟩ := Nat.exists_eq_add_of_le hm
    clear hm
    induction k with
    | zero => exact hp
    | succ k ih => exact ih.step (r.ok _)
  obtain ⟨m, ch, rr, x, L, h1, h2, h3, h4, h5, h6⟩ := h.serve hat hij hk
  have hz : losum (wts δ φ .O p) (.client (.app g) :: rest) = 0 := by
    have ha := (lin_ok (r.reach hr m) .O p).pend t h2
    have hi : (wts δ φ .O p).inn (r.st m).data = 1 := inn_pkg (r.reach hr m) (hpk m h1)
    have ha' : ktw 1 p (.fut p a : STask α) + thw (wts δ φ .O p) (r.st m) t + _ ≤ (wts δ φ .O p).inn (r.st m).data := ha
    have hw : ktw 1 p (.fut p a : STask α) = 1 := by simp [ktw, b1]
    have hl := losum_thw .O p (r.st m) t
    obtain ⟨pre, hpre⟩ := h.suf hat (show i ≤ m by omega)
    have : losum (wts δ φ .O p) ((r.st m).stk t) = losum (wts δ φ .O p) pre + losum (wts δ φ .O p) (.client (.app g) :: rest) := by
      rw [← hpre]; simp [losum, lsum]
    omega
  have hexe : Exe t p (r.st (m + 1)) := by
    refine ⟨?_, .inr ⟨a, _, h5, h6⟩⟩
    refine Nat.le_trans ?_ (losum_thw .O p (r.st (m + 1)) t)
    rw [h5]
    simp [Frame.lo, CF.lw, wts, ktw, b1, Tab.tl]
    omega
  obtain ⟨m', h7, h8, h9⟩ := h.back hat (m + 1)
  rcases Exe.run r hr h7 (hpk _ (by omega)) hexe with ⟨v, hv⟩ | h10
  · exact ⟨m', v, hv⟩
  · exfalso
    have h11 := h10.1
    rw [stw_none h8] at h11
    rw [losum_cons] at hz
    rcases h9 with h9 | ⟨dl, h9⟩
    · rw [h9] at h11
      have h12 : 1 ≤ 0 + losum (wts δ φ .O p) rest := h11
      omega
    · rw [h9] at h11
      simp only [topHi, Frame.hi, CF.tw, CF.lw, losum_cons] at h11
      omega

end
end Sync
end Itc
