import Verif.Core.Frag
import Verif.Core.Demo

/-!
# Concrete activations (`Frag`) of the table client, used only for witnesses
-/
namespace Itc
namespace Core

/-- Runs the steps `ls` and checks that the activation above `rest` stays in progress, counting the tasks it starts itself. -/
def fragRun {τ φ δ χ : Type} [DecidableEq τ] [DecidableEq φ] (C : Client τ φ δ χ) (t : Nat) (rest : List (Frame τ φ)) :
    St τ φ δ → Nat → List (Lbl χ) → Option (Nat × St τ φ δ)
  | s, n, [] => some (n, s)
  | s, n, l :: ls =>
    match step C s l with
    | none => none
    | some s2 =>
      if (s2.stk t).drop ((s2.stk t).length - rest.length) = rest ∧ rest.length < (s2.stk t).length then
        if (s.stk t).length = rest.length + 1 ∧ s2.log.length = s.log.length + 1 ∧
            (s2.log.head?.any fun | .started u _ _ => u == t | _ => false) ∧ s2.log.tail = s.log
        then fragRun C t rest s2 (n + 1) ls
        else fragRun C t rest s2 n ls
      else none

theorem fragRun_sound {τ φ δ χ : Type} [DecidableEq τ] [DecidableEq φ] {C : Client τ φ δ χ} {t : Nat} {rest : List (Frame τ φ)} {s0 : St τ φ δ} :
    ∀ (ls : List (Lbl χ)) {s s' : St τ φ δ} {n n' : Nat}, Frag C t rest s0 n s →
      fragRun C t rest s n ls = some (n', s') → Frag C t rest s0 n' s' := by
  intro ls
  induction ls with
  | nil =>
    intro s s' n n' hf h
    simp only [fragRun, Option.some.injEq, Prod.mk.injEq] at h
    obtain ⟨rfl, rfl⟩ := h
    exact hf
  | cons l ls ih =>
    intro s s' n n' hf h
    simp only [fragRun] at h
    split at h
    · contradiction
    · rename_i s2 hs
      split at h
      · rename_i hsuf
        obtain ⟨hsuf, hlen⟩ := hsuf
        have htk : s2.stk t = (s2.stk t).take ((s2.stk t).length - rest.length) ++ rest := by
          conv_lhs => rw [← List.take_append_drop ((s2.stk t).length - rest.length) (s2.stk t), hsuf]
        have hne : (s2.stk t).take ((s2.stk t).length - rest.length) ≠ [] := by
          intro h0
          have := congrArg List.length h0
          simp only [List.length_take, List.length_nil] at this
          omega
        obtain ⟨pre, g, hpg⟩ : ∃ pre g, (s2.stk t).take ((s2.stk t).length - rest.length) = pre ++ [g] :=
          ⟨_, _, (List.dropLast_append_getLast hne).symm⟩
        have hst : s2.stk t = pre ++ g :: rest := by rw [htk, hpg]; simp
        split at h
        · rename_i hc
          obtain ⟨h1, h2, h3, h4⟩ := hc
          cases hl : s2.log with
          | nil => rw [hl] at h3; simp at h3
          | cons e lg =>
            rw [hl] at h3 h4
            simp only [List.head?_cons, Option.any_some, List.tail_cons] at h3 h4
            subst h4
            cases e with
            | started u c k =>
              have : u = t := by simpa using h3
              subst this
              exact ih (Frag.start l pre g hf hs hst h1 c k hl) h
            | _ => simp at h3
        · rename_i hc
          refine ih (Frag.next l pre g hf hs hst ?_) h
          rintro ⟨h1, c, k, h2⟩
          apply hc
          rw [h2]
          simp [h1]
      · contradiction

/-- A concrete call: execution `ls1`, then the activation runs for `ls2`, then the step `lb`. -/
theorem fragWit {β : Type} {l : List (Act Nat Nat)} {ls1 ls2 : List (Lbl Unit)} {lb : Lbl Unit} {hnd : Nat → Option Nat}
    {t : Nat} {g : Frame Nat Nat} {rest : List (Frame Nat Nat)} {obs : St Nat Nat Unit → Nat → St Nat Nat Unit → St Nat Nat Unit → β} {b : β}
    (h : ((exec l ls1 hnd).bind fun s0 => if s0.stk t = g :: rest then
        (fragRun (tableClient (prog l) hnd) t rest s0 0 ls2).bind fun p =>
          (step (tableClient (prog l) hnd) p.2 lb).map fun s' => obs s0 p.1 p.2 s' else none) = some b) :
    ∃ s0 n s s', Reach (tableClient (prog l) hnd) () 1 s0 ∧ s0.stk t = g :: rest ∧
      Frag (tableClient (prog l) hnd) t rest s0 n s ∧ step (tableClient (prog l) hnd) s lb = some s' ∧ obs s0 n s s' = b := by
  obtain ⟨s0, h0, h⟩ := Option.bind_eq_some_iff.1 h
  split at h
  · rename_i hst
    obtain ⟨⟨n, s⟩, h1, h⟩ := Option.bind_eq_some_iff.1 h
    obtain ⟨s', h2, h3⟩ := Option.map_eq_some_iff.1 h
    exact ⟨s0, n, s, s', exec_reach h0, hst, fragRun_sound ls2 (Frag.here g hst) h1, h2, h3⟩
  · contradiction

end Core
end Itc
