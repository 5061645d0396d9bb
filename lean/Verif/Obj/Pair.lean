import Verif.Obj.Own

/-!
# Handles and ids stay paired (proof infrastructure, no claims)
-/
namespace Itc
namespace Obj
open Core
section
variable {τ φ δ χ : Type}

/-- The id given to native thread `n` by the latest constructor that started a thread with this native id. -/
def lastMade (n : Nat) : List OEv → Option Nat
  | [] => none
  | .made _ _ m id :: l => if m = n then some id else lastMade n l
  | _ :: l => lastMade n l

def pr (d : OData δ) (x : TObj) : Prop := ∀ n, x.native = some n → lastMade n d.olog = some x.id

def isMk : OFrame φ → Prop
  | .mkReg _ _ => True
  | .mkId _ _ => True
  | _ => False

theorem pr_none {d : OData δ} {x : TObj} (h : x.native = none) : pr d x := by intro n hn; rw [h] at hn; contradiction

/-- The constructor is the only one that makes a new pair. -/
theorem os_made {t : Nat} {d d' : OData δ} {f : OFrame φ} {rv : Val} {a : Act τ (OFrame φ)} (h : OS t d f rv d' a) :
    ((∀ n, lastMade n d'.olog = lastMade n d.olog) ∧ ((∃ o n, f = .mkId o n) → a = .terminate)) ∨
    ∃ o n id, f = .mkId o n ∧ d' = (d.put o { native := some n, id := id } false).ev (.made t o n id) ∧ a = .ret .unit := by
  cases h
  case mkId o n id => exact .inr ⟨o, n, id, rfl, rfl, rfl⟩
  all_goals exact .inl ⟨fun n => rfl, by first | (intro _; rfl) | simp⟩

theorem os_good {t : Nat} {d d' : OData δ} {f : OFrame φ} {rv : Val} {a : Act τ (OFrame φ)} (h : OS t d f rv d' a)
    (hf : ∀ o n, f ≠ .mkId o n)
    (hidle : ∀ o x, d.slot o = some ⟨x, false⟩ → pr d x)
    (htok : ¬ isMk f → ∀ o ∈ objs f, ∀ x, d.slot o = some x → pr d x.obj)
    {o : Nat} {x : Slot} (hx : d'.slot o = some x) :
    pr d x.obj ∨ (d.slot o = some x ∧ (isMk f ∨ o ∉ objs f)) ∨ (x.busy = true ∧ ∃ g, a.cont = some g ∧ isMk g ∧ o ∈ objs g) := by
  have old : d.slot o = some x → pr d x.obj ∨ (d.slot o = some x ∧ (isMk f ∨ o ∉ objs f)) ∨ (x.busy = true ∧ ∃ g, a.cont = some g ∧ isMk g ∧ o ∈ objs g) := by
    intro h
    by_cases h1 : isMk f
    · exact .inr (.inl ⟨h, .inl h1⟩)
    · by_cases h2 : o ∈ objs f
      · exact .inl (htok h1 o h2 x h)
      · exact .inr (.inl ⟨h, .inr h2⟩)
  cases h
  case mkId o n id => exact absurd rfl (hf o n)
  case mkIn o' n f h =>
    rw [slot_put] at hx
    split at hx
    · cases hx; exact .inr (.inr ⟨rfl, _, rfl, trivial, by simp [objs, *]⟩)
    · exact old hx
  case mkReg o' n =>
    rw [slot_put] at hx
    split at hx
    · cases hx; exact .inr (.inr ⟨rfl, _, rfl, trivial, by simp [objs, *]⟩)
    · exact old hx
  all_goals
    try simp only [slot_ev, slot_put, slot_set, OData.exch] at hx
    repeat' split at hx
    all_goals first
      | exact old hx
      | contradiction
      | (cases hx
         left
         first
         | exact pr_none rfl
         | exact hidle _ _ ‹_›
         | (dsimp only; refine htok (by simp [isMk]) _ ?_ _ (by assumption); simp [objs, JK.objs])
         | (dsimp only; exact htok (by simp [isMk]) _ (by simp [objs]; left; rfl) _ ‹_›)
         | (dsimp only; exact htok (by simp [isMk]) _ (by simp [objs]; right; rfl) _ ‹_›))

/-- Idle objects are paired, and so are the objects of an operation in progress other than a constructor. -/
structure Pairs (s : OSt τ φ δ) : Prop where
  idle : ∀ o x, s.data.slot o = some ⟨x, false⟩ → pr s.data x
  tok : ∀ t g, .client g ∈ s.stk t → ¬ isMk g → ∀ o ∈ objs g, ∀ x, s.data.slot o = some x → pr s.data x.obj

theorem cont_objs {t : Nat} {d d' : OData δ} {f g : OFrame φ} {rv : Val} {a : Act τ (OFrame φ)} (h : OS t d f rv d' a)
    (hg : a.cont = some g) (hm : ¬ isMk g) : ¬ isMk f ∧ ∀ o ∈ objs g, o ∈ objs f ∨ ∃ x, d.slot o = some ⟨x, false⟩ := by
  cases h <;> simp only [Act.cont, Option.some.injEq, reduceCtorEq] at hg <;> subst hg <;> simp only [isMk, not_true_eq_false] at hm ⊢ <;>
    refine ⟨not_false, ?_⟩ <;> intro o ho
  case asJoin h h' _ => simp only [objs, JK.objs, List.mem_cons, List.not_mem_nil, or_false] at ho; rcases ho with rfl | rfl; exact .inr ⟨_, h⟩; exact .inr ⟨_, h'⟩
  case asNo h h' _ => simp only [objs, List.mem_cons, List.not_mem_nil, or_false] at ho; rcases ho with rfl | rfl; exact .inr ⟨_, h⟩; exact .inr ⟨_, h'⟩
  case jnIn h => simp only [objs, JK.objs, List.mem_cons, List.not_mem_nil, or_false] at ho; subst ho; exact .inr ⟨_, h⟩
  case dtJoin h _ => simp only [objs, JK.objs, List.mem_cons, List.not_mem_nil, or_false] at ho; subst ho; exact .inr ⟨_, h⟩
  case dtNo h _ => simp only [objs, List.mem_cons, List.not_mem_nil, or_false] at ho; subst ho; exact .inr ⟨_, h⟩
  case deIn h _ => simp only [objs, List.mem_cons, List.not_mem_nil, or_false] at ho; subst ho; exact .inr ⟨_, h⟩
  case jnBad K x e h => exact .inl (fail_objs K e o ho)
  case jnEnd K n => exact .inl (by rw [next_objs] at ho; exact ho)
  all_goals exact .inl ho

theorem pairs_reach {U : User τ φ δ χ} {ud : δ} {f : φ} {s : OSt τ φ δ} (hr : OR U ud f s) (hp : s.term = false) : Pairs s := by
  revert hp
  refine Reach.induct (fun s : OSt τ φ δ => s.term = false → Pairs s) ?_ ?_ hr
  · intro _
    refine ⟨by simp [Core.init], by simp [Core.init]⟩
  · intro s l s' hr q hs hp'
    have hp : s.term = false := by
      cases l <;> simp only [step] at hs <;> (split at hs; contradiction; rename_i h; simp at h; exact h.2)
    have q := q hp
    cases l with
    | tick n => rw [step_tick _ s s' n hs]; exact ⟨q.idle, q.tok⟩
    | th t ch =>
      rcases data_step hs with ⟨h1, h2⟩ | ⟨f, rest, a, hexc, hold, hos, hact⟩
      · have hpr : ∀ x, pr s.data x → pr s'.data x := by intro x h n hn; rw [h2]; exact h n hn
        refine ⟨?_, ?_⟩
        · intro o x hx; exact hpr _ (q.idle o x (h1 ▸ hx))
        · intro u g hg hm o ho x hx
          rw [h1] at hx
          rcases new_frame hr hs hg with ⟨y, rfl⟩ | h | ⟨hg0, -⟩ | ⟨rfl, f, rest, a, hexc, hold, hos, hc⟩
          · simp [objs] at ho
          · rw [h] at ho; simp at ho
          · exact hpr _ (q.tok u g hg0 hm o ho x hx)
          · rcases hc with hc | hc
            · obtain ⟨h3, h4⟩ := cont_objs hos hc hm
              rcases h4 o ho with h4 | ⟨y, h4⟩
              · exact hpr _ (q.tok u f (by rw [hold]; simp) h3 o h4 x hx)
              · rw [h4] at hx; cases hx; exact hpr _ (q.idle o y h4)
            · rw [hp'] at hc; contradiction
      · have htop : .client f ∈ s.stk t := by rw [hold]; simp
        have hown := own_reach hr
        -- frames that are not new
        have kept : ∀ u g, .client g ∈ s.stk u → (u ≠ t ∨ s'.data = s.data ∨ ∃ x rest, s.stk t = x :: rest ∧ .client g ∈ rest) →
            ∀ o ∈ objs g, s'.data.slot o = s.data.slot o ∧ (s'.data = s.data ∨ o ∉ objs f) := by
          intro u g hg hw o ho
          by_cases hd : s'.data = s.data
          · rw [hd]; exact ⟨rfl, .inl rfl⟩
          · have : o ∉ objs f := by
              intro hof
              rcases hw with hw | hw | ⟨x, rest', hw, hw'⟩
              · exact tok_top hr hold hof hg ho (.inl hw)
              · exact hd hw
              · rw [hold] at hw; cases hw
                exact tok_top hr hold hof hg ho (.inr hw')
            exact ⟨(os_keep hos this (tok_busy hr hg ho)).1, .inr this⟩
        rcases os_made hos with ⟨hlm, hterm⟩ | ⟨o1, n1, id1, rfl, hd', rfl⟩
        · have hpr : ∀ x, pr s.data x → pr s'.data x := by intro x h n hn; rw [hlm]; exact h n hn
          by_cases hmk : ∃ o n, f = .mkId o n
          · have := hterm hmk
            subst this
            rw [hact.2.1] at hp'; contradiction
          · have hg := fun {a : Act τ (OFrame φ)} {o x} (hos : OS t s.data f (s.thr t).rv s'.data a) => os_good (o := o) (x := x) hos (by intro o n h; exact hmk ⟨o, n, h⟩) q.idle (fun h o ho x hx => q.tok t f htop h o ho x hx)
            refine ⟨?_, ?_⟩
            · intro o x hx
              rcases hg hos hx with h | ⟨h, -⟩ | ⟨h, -⟩
              · exact hpr _ h
              · exact hpr _ (q.idle o x h)
              · contradiction
            · intro u g hgs hm o ho x hx
              rcases new_frame hr hs hgs with ⟨y, rfl⟩ | h | ⟨hg0, hw⟩ | ⟨rfl, f', rest', a', hexc', hold', hos', hc⟩
              · simp [objs] at ho
              · rw [h] at ho; simp at ho
              · rw [(kept u g hg0 hw o ho).1] at hx
                exact hpr _ (q.tok u g hg0 hm o ho x hx)
              · rw [hold] at hold'; cases hold'
                rcases hc with hc | hc
                · obtain ⟨h3, h4⟩ := cont_objs hos' hc hm
                  rcases hg hos' hx with h | ⟨h, h5⟩ | ⟨-, g', h6, h7, -⟩
                  · exact hpr _ h
                  · rcases h4 o ho with h4 | ⟨y, h4⟩
                    · rcases h5 with h5 | h5
                      · exact absurd h5 h3
                      · exact absurd h4 h5
                    · rw [h4] at h; cases h; exact hpr _ (q.idle o y h4)
                  · rw [hc] at h6; cases h6; exact absurd h7 hm
                · rw [hp'] at hc; contradiction
        · have hpf : s.data.slot o1 = some ⟨⟨some n1, 0⟩, true⟩ := pf_reach hr htop hp
          have hother : ∀ o x, o ≠ o1 → s.data.slot o = some x → pr s.data x.obj → pr s'.data x.obj := by
            intro o x hne hx hpx n hn
            have hn1 : n1 ≠ n := by
              rintro rfl
              have := hown.uniq (h := .inl o) (h' := .inl o1) (n := n1) (by simp [hf, slotH, hx, hn]) (by simp [hf, slotH, hpf])
              exact hne (by simpa using this)
            rw [hd']
            simp only [OData.ev, lastMade, hn1, if_false]
            exact hpx n hn
          have hslot : ∀ o x, s'.data.slot o = some x → (o = o1 ∧ x = ⟨⟨some n1, id1⟩, false⟩) ∨ (o ≠ o1 ∧ s.data.slot o = some x) := by
            intro o x hx
            rw [hd', slot_ev, slot_put] at hx
            split at hx
            · rename_i h; cases hx; exact .inl ⟨h, rfl⟩
            · rename_i h; exact .inr ⟨h, hx⟩
          have hnew : pr s'.data ⟨some n1, id1⟩ := by
            intro n hn
            cases hn
            rw [hd']; simp [OData.ev, lastMade]
          refine ⟨?_, ?_⟩
          · intro o x hx
            rcases hslot o _ hx with ⟨rfl, h⟩ | ⟨h, h'⟩
            · cases h; exact hnew
            · exact hother o _ h h' (q.idle o x h')
          · intro u g hgs hm o ho x hx
            rcases hslot o _ hx with ⟨rfl, rfl⟩ | ⟨h, h'⟩
            · exact hnew
            · refine hother o x h h' ?_
              rcases new_frame hr hs hgs with ⟨y, rfl⟩ | h | ⟨hg0, hw⟩ | ⟨rfl, f', rest', a', hexc', hold', hos', hc⟩
              · simp [objs] at ho
              · rw [h] at ho; simp at ho
              · exact q.tok u g hg0 hm o ho x h'
              · rw [hold] at hold'; cases hold'
                rcases hc with hc | hc
                · exact absurd trivial (cont_objs hos' hc hm).1
                · rw [hp'] at hc; contradiction

end
end Obj
end Itc
