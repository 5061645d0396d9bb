import Verif.Sync.ALin
import Verif.Sync.Cont

/-!
# Accounts of functors: what single frames hold (proof infrastructure, no claims)
-/
namespace Itc
namespace Sync
open Core
section
variable {α φ δ χ : Type} {A : App α φ δ χ} {ad0 : δ} {f0 : φ}

/-- An application frame on a stack holds what it holds. -/
theorem AL.mem' (B : AL A ad0 f0) (h0 : B.out ad0 ≤ B.inn ad0) {s : SSt α φ δ} (h : SR A ad0 f0 s) {t : Nat} {f : φ}
    (hm : .client (.app f) ∈ s.stk t) : B.g f + lsum B.ev s.data.sd.slog + B.out s.data.ad ≤ B.inn s.data.ad := by
  have h1 := (B.ok h0 h).le t
  have h2 := lsum_mem (w := Frame.lo B.wts) hm
  have h3 : losum B.wts (s.stk t) ≤ thw B.wts s t := by
    unfold thw stw
    have hk : ∀ (k : STask α), B.kt B.o k ≤ B.kt B.o k := fun _ => Nat.le_refl _
    split
    · cases s.stk t with
      | nil => exact Nat.le_refl _
      | cons f r =>
        simp only [losum_cons, topHi]
        have : f.lo B.wts ≤ f.hi B.wts (s.thr t).rv := by
          cases f with
          | client f => simp [Frame.lo, Frame.hi, AW.wts]
          | core f => cases f <;> exact Nat.le_refl _
        omega
    · cases s.stk t with
      | nil => exact Nat.le_refl _
      | cons f r =>
        simp only [losum_cons, topHx]
        have : f.lo B.wts ≤ f.hx B.wts := by
          cases f with
          | client f => exact Nat.le_refl _
          | core f => cases f <;> exact Nat.le_refl _
        omega
  have h4 : B.g f ≤ losum B.wts (s.stk t) := h2
  have h5 : thw B.wts s t + (B.CB s.data.sd.nst s.data.sd.st + lsum B.ev s.data.sd.slog + B.out s.data.ad) ≤ B.inn s.data.ad := h1
  omega

theorem AL.mem (B : AL A ad0 f0) (h0 : B.out ad0 ≤ B.inn ad0) {s : SSt α φ δ} (h : SR A ad0 f0 s) {t : Nat} {f : φ}
    (hm : .client (.app f) ∈ s.stk t) : B.g f + B.out s.data.ad ≤ B.inn s.data.ad := by
  have := B.mem' h0 h hm
  omega

theorem AL.data' (B : AL A ad0 f0) (h0 : B.out ad0 ≤ B.inn ad0) {s : SSt α φ δ} (h : SR A ad0 f0 s) :
    lsum B.ev s.data.sd.slog + B.out s.data.ad ≤ B.inn s.data.ad := by
  have h1 := (B.ok h0 h).le 0
  have h5 : thw B.wts s 0 + (B.CB s.data.sd.nst s.data.sd.st + lsum B.ev s.data.sd.slog + B.out s.data.ad) ≤ B.inn s.data.ad := h1
  omega

theorem AL.data (B : AL A ad0 f0) (h0 : B.out ad0 ≤ B.inn ad0) {s : SSt α φ δ} (h : SR A ad0 f0 s) : B.out s.data.ad ≤ B.inn s.data.ad := by
  have := B.data' h0 h
  omega

end
end Sync
end Itc
