import Verif.Pool.Acc
import Verif.Pool.Hist
import Verif.Sync.Out
import Mathlib.Data.List.Perm.Subperm
import Mathlib.Algebra.BigOperators.Group.List.Basic

/-!
# Thread pool: what the accounts say (proof infrastructure, no claims)
-/
namespace Itc
namespace Pool
open Core Sync
section
variable {α φ δ χ : Type} {U : PApp α φ δ χ} {u0 : δ} {f0 : φ} {s : PSt α φ δ}

theorem PL.Ok.data' {L : PL α φ δ} (h : L.Ok U u0 f0) (hr : PR U u0 f0 s) : lsum L.aw.ev s.data.sd.slog + L.out s.data.ad ≤ L.inn s.data.ad :=
  h.al.data' (L.start _) hr

theorem PL.Ok.mem {L : PL α φ δ} (h : L.Ok U u0 f0) (hr : PR U u0 f0 s) {t : Nat} {f : PFrame α φ} (hm : .client (.app f) ∈ s.stk t) :
    L.g f + lsum L.aw.ev s.data.sd.slog + L.out s.data.ad ≤ L.inn s.data.ad :=
  h.al.mem' (L.start _) hr hm

theorem lsum_le {β : Type} {v w : β → Nat} : ∀ {l : List β}, (∀ x ∈ l, v x ≤ w x) → lsum v l ≤ lsum w l
  | [], _ => Nat.le_refl _
  | x :: l, h => by
    rw [lsum_cons, lsum_cons]
    have h1 := h x (by simp)
    have h2 := lsum_le (l := l) fun y hy => h y (by simp [hy])
    omega

theorem pk1 (hr : PR U u0 f0 s) (x : Nat) : lsum (ePx x) s.data.ad.plog ≤ 1 := by
  have h1 := (aTag_ok U u0 f0 (s.data.sd.st x).home).data' hr
  have h2 : lsum (ePx x) s.data.ad.plog ≤ lsum (ePk (s.data.sd.st x).home) s.data.ad.plog := by
    refine lsum_le fun e he => ?_
    cases e <;> simp only [ePx, ePk, Nat.le_refl]
    rename_i k y
    have := (tyI hr).pk he
    by_cases hy : y = x
    · subst hy; simp [b1, this.2.2.1]
    · simp [b1, hy]
  have h3 : (aTag (s.data.sd.st x).home : PL α φ δ).inn s.data.ad ≤ 1 := by simp only [aTag, b1]; split <;> omega
  have h4 : (aTag (s.data.sd.st x).home : PL α φ δ).out s.data.ad = lsum (ePk (s.data.sd.st x).home) s.data.ad.plog := rfl
  omega

theorem sch1 (hr : PR U u0 f0 s) (x : Nat) : lsum (eSch x) s.data.ad.plog ≤ 1 := by
  have h1 := (aSch_ok U u0 f0 x).data' hr
  have h2 := pk1 hr x
  simp only [aSch] at h1
  omega

/-- (pool, id, tasks) of the jobs that were taken / inserted. -/
def tookT : PEv α → Option (Nat × Nat × Call α)
  | .took _ i _ id c _ => some (i, id, c)
  | _ => none

def schT : PEv α → Option (Nat × Nat × Call α)
  | .sched _ i id c _ => some (i, id, c)
  | _ => none

theorem lsum_fm {β γ : Type} {f : β → Option γ} {w : γ → Nat} {v : β → Nat} (h : ∀ x, v x = (match f x with | some y => w y | none => 0)) :
    ∀ l : List β, lsum v l = lsum w (l.filterMap f)
  | [] => rfl
  | x :: l => by
    have := lsum_fm h l
    rw [lsum_cons, h x, this]
    cases hx : f x <;> simp [hx, List.filterMap_cons]

theorem lsum_sub {β : Type} {w : β → Nat} {l' l : List β} (h : l'.Sublist l) : lsum w l' ≤ lsum w l := by
  induction h with
  | slnil => exact Nat.le_refl _
  | cons x h ih => rw [lsum_cons]; omega
  | cons_cons x h ih => rw [lsum_cons, lsum_cons]; omega

theorem tk_le (hr : PR U u0 f0 s) (x : Nat) : lsum (eTk x) s.data.ad.plog ≤ lsum (eSch x) s.data.ad.plog := by
  rw [lsum_fm (f := tookT) (w := fun y => cs x y.2.2) (by intro e; cases e <;> rfl), lsum_fm (f := schT) (v := eSch x) (w := fun y => cs x y.2.2) (by intro e; cases e <;> rfl)]
  have hn : (s.data.ad.plog.filterMap tookT).Nodup := by
    have h : ∀ i, (takenIds i s.data.ad.plog).Nodup := fun i => (List.nodup_append.1 ((ji hr) i).cuts).1
    generalize s.data.ad.plog = l at h
    induction l with
    | nil => simp
    | cons e l ih =>
      have ih := ih fun i => by
        have := h i
        rw [takenIds, List.filterMap_cons] at this
        split at this
        · exact this
        · exact (List.nodup_cons.1 this).2
      rw [List.filterMap_cons]
      split
      · exact ih
      · rename_i y hy
        refine List.nodup_cons.2 ⟨?_, ih⟩
        cases e <;> simp [tookT] at hy
        subst hy
        intro hm
        obtain ⟨e', h1, h2⟩ := List.mem_filterMap.1 hm
        cases e' <;> simp [tookT] at h2
        obtain ⟨rfl, rfl, rfl⟩ := h2
        rename_i t1 i L1 id c h2
        have := h i
        rw [takenIds, List.filterMap_cons] at this
        simp only [PEv.takenId, if_true] at this
        refine (List.nodup_cons.1 this).1 (List.mem_filterMap.2 ⟨_, h1, ?_⟩)
        simp [PEv.takenId]
  have hsub : s.data.ad.plog.filterMap tookT ⊆ s.data.ad.plog.filterMap schT := by
    intro y hy
    obtain ⟨e, h1, h2⟩ := List.mem_filterMap.1 hy
    cases e <;> simp [tookT] at h2
    subst h2
    obtain ⟨t, g, h3⟩ := took_schd hr h1
    exact List.mem_filterMap.2 ⟨_, h3, rfl⟩
  obtain ⟨l', h1, h2⟩ := List.subperm_of_subset hn hsub
  have h3 : lsum (fun y => cs x y.2.2) l' = lsum (fun y => cs x y.2.2) (s.data.ad.plog.filterMap tookT) := by
    unfold lsum; exact (h1.map _).sum_eq
  rw [← h3]
  exact lsum_sub h2
end
end Pool
end Itc
