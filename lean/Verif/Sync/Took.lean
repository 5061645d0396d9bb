import Verif.Props.Ready

/-!
# Waiters of a ready future have been signalled (proof infrastructure, no claims)
-/
namespace Itc
namespace Sync
open Core
section
variable {α φ δ χ : Type} {A : App α φ δ χ} {ad : δ} {i0 : φ} {s s' : SSt α φ δ}

/-- The semaphore whose waiters a frame notifies. -/
def nsem : SFrame α φ → SemId
  | .nLoop K _ => K.sem
  | .nCall K _ _ _ => K.sem
  | .nAfter K _ _ _ => K.sem
  | _ => .cv 0

/-- The waiters a notifier deals with come from its semaphore. -/
def TookT (d : SData α) (t : Nat) (f : SFrame α φ) : Prop :=
  ∀ x, (x ∈ todo f ∨ cur f = some x) → ∃ l, .took t (nsem f) l ∈ d.slog ∧ x ∈ l

theorem TookT.triv {d : SData α} {t : Nat} {f : SFrame α φ} (h1 : todo f = []) (h2 : cur f = none) : TookT d t f := by
  intro x h; rw [h1, h2] at h; simp at h

theorem laNext_tookT {d : SData α} {t : Nat} {K : LK α} {c : Kont α} {b : Bool} :
    ActOK (TookT (φ := φ) d) (fun _ => True) t (laNext K c b) := by
  cases K <;> cases b <;> simp only [laNext, ActOK] <;> first | trivial | exact .triv rfl rfl | exact ⟨.triv rfl rfl, .triv rfl rfl⟩

theorem tookT_step {run destroy : α → φ} {v : View} {d d' : SData α} {rv : Val} {f : SFrame α φ} {a : Act (STask α) (SFrame α φ)}
    (ht : TookT d v.tid f) (hS : SS run destroy v d rv f d' a) : ActOK (TookT (φ := φ) d') (fun _ => True) v.tid a := by
  have hm : TookT d' v.tid f := fun x hx => by
    obtain ⟨l, h1, h2⟩ := ht x hx
    exact ⟨l, hS.ext.mem h1, h2⟩
  cases hS
  case n1In n =>
    rintro x (hx | hx)
    · exact ⟨_, List.mem_cons_self, hx⟩
    · cases hx
  case naIn K =>
    rintro x (hx | hx)
    · exact ⟨_, List.mem_cons_self, hx⟩
    · cases hx
  case nSkip K k l =>
    rintro x (hx | hx)
    · exact hm x (.inl (List.mem_cons_of_mem _ hx))
    · cases hx
  case nSig K i k l hi =>
    rintro x (hx | hx)
    · exact hm x (.inl (List.mem_cons_of_mem _ hx))
    · cases hx; exact hm _ (.inl List.mem_cons_self)
  case nCall K i k l => exact ⟨hm, trivial⟩
  case nAfter K i k l =>
    rintro x (hx | hx)
    · exact hm x (.inl hx)
    · cases hx
  case laRet K c => exact laNext_tookT
  case laEnd K c => exact laNext_tookT
  all_goals first
    | exact trivial
    | exact .triv rfl rfl
    | exact ⟨.triv rfl rfl, trivial⟩
    | exact ⟨.triv rfl rfl, .triv rfl rfl⟩

def tookTy (A : App α φ δ χ) (ad : δ) (f0 : φ) : STy A (SR A ad f0) where
  I _ := True
  PF := TookT
  PT _ _ := True
  app := .triv rfl rfl
  entry := by intro d t a; cases a <;> exact .triv rfl rfl
  tapp := trivial
  step := by
    intro s t f rest d' a hj he hst hi hp hS
    refine ⟨trivial, fun u g hg x hx => ?_, fun _ _ => trivial, tookT_step hp hS⟩
    obtain ⟨l, h1, h2⟩ := hg x hx
    exact ⟨l, hS.ext.mem h1, h2⟩
  done := .triv rfl rfl
  task := fun _ _ => ⟨.triv rfl rfl, .triv rfl rfl⟩
  throw := fun {s t f rest e f'} _ _ _ _ _ h => by
    cases f <;> simp only [sThrow, Option.some.injEq, reduceCtorEq, Option.map_eq_some_iff] at h
    · obtain ⟨x, -, rfl⟩ := h; exact .triv rfl rfl
    all_goals subst h; exact .triv rfl rfl

/-- A notifier that has taken a waiter of a future holds the guard of its state. -/
theorem took_guard (hr : SR A ad i0 s) {u w i k p : Nat} {g h : SFrame α φ} (hg : .client g ∈ s.stk u) (hw : wtok g = some (.fut p, i, k))
    (hh : .client h ∈ s.stk w) (hk : (i, k) ∈ todo h ∨ cur h = some (i, k)) : gw p h = 1 ∧ wtok h = none := by
  obtain ⟨l, h1, h2⟩ := ((tookTy A ad i0).sound trivial hr).fr w _ hh (i, k) hk
  obtain ⟨a, ha⟩ := (sem_F hr hg).wt _ _ _ hw
  obtain ⟨b, hb⟩ := (sem_I hr).tookEnt h1 h2
  obtain ⟨-, hS, -⟩ := (sem_I hr).entUq ha hb
  have key : ∀ K : NK α, SemId.fut p = K.sem → K.gw p = 1 := by
    intro K hK
    cases K <;> cases hK
    simp [NK.gw, one]
  cases h <;> first
    | exact ⟨key _ hS, rfl⟩
    | (simp [todo, cur] at hk; done)

/-- The waits of a thread on a ready future have been signalled, if nobody is in the middle of a notification; unless a nested wait has removed the
    entry. -/
theorem settled (hr : SR A ad i0 s) {u p i k : Nat} {g : SFrame α φ} (hg : .client g ∈ s.stk u) (hw : wtok g = some (.fut p, i, k)) (hi : i ≠ 0)
    (hrd : s.data.sd.ready p = true) (hno : ∀ w h, .client h ∈ s.stk w → gw p h = 1 → wtok h ≠ none) :
    s.data.sd.tok k = true ∨ ∃ l k' y, .left u (.fut p) l k' y ∈ s.data.sd.slog ∧ (i, k) ∈ l ∧ y ≠ .sig := by
  obtain ⟨u', hent⟩ := wait_entered hr hg hw
  rcases fate hr hent hi with h | h | ⟨w, h, h1, h2⟩ | ⟨w, l, k', y, h1, h2⟩
  · obtain ⟨v, cs, rest, hv⟩ := ready_waiters hr h hrd
    exact absurd rfl (hno v (.naIn (.fut p cs)) (by rw [hv]; simp) (by simp [gw, NK.gw, one]))
  · exact .inl h
  · obtain ⟨h3, h4⟩ := took_guard hr hg hw h1 (.inl h2)
    exact absurd h4 (hno w h h1 h3)
  · obtain ⟨rfl, hy⟩ := (ni hr).lost u g _ _ _ hg hw hi w l k' y h1 h2
    exact .inr ⟨l, k', y, h1, h2, hy⟩

theorem no_note (hr : SR A ad i0 s) {p : Nat} (hf : s.data.sd.lk (.guard p) = none) (w : Nat) (h : SFrame α φ) (hh : .client h ∈ s.stk w)
    (hg : gw p h = 1) : wtok h ≠ none := by
  rw [guard_own hr hh hg] at hf; cases hf

theorem top_note (hr : SR A ad i0 s) {u p : Nat} {x : SFrame α φ} {L : List (Fr α φ)} (hst : s.stk u = .client x :: L) (hx : gw p x = 1)
    (hxw : wtok x ≠ none) (w : Nat) (h : SFrame α φ) (hh : .client h ∈ s.stk w) (hg : gw p h = 1) : wtok h ≠ none := by
  obtain rfl := guard_excl hr (t := u) (g := x) (by rw [hst]; simp) hx hh hg
  rw [hst] at hh
  rcases List.mem_cons.1 hh with hh | hh
  · cases hh; exact hxw
  · have h1 := gcnt_ok hr p w
    have h2 := wsum_mem (w := gw p) hh
    rw [hst] at h1
    have h3 : gw p x + wsum (gw p) L = gown p s.data.sd w := h1
    have := one_le (decide (s.data.sd.lk (.guard p) = some w))
    unfold gown at h3
    omega

end
end Sync
end Itc
