import Verif.Sync.Act
import Verif.Sync.Guard
import Verif.Core.Keep

/-!
# Waiter lists and tokens of the semaphores (proof infrastructure, no claims)
-/
namespace Itc
namespace Sync
open Core
section
variable {α φ δ χ : Type}

/-- Events about waiters. -/
def isSemEv : SEv → Bool
  | .enter _ _ _ _ => true
  | .left _ _ _ _ _ => true
  | .took _ _ _ => true
  | .sig _ _ => true
  | _ => false

/-- Program points of a wait: the semaphore, the id and the token. -/
def wtok : SFrame α φ → Option (SemId × Nat × Nat)
  | .swLoop w i k => some (w.sem, i, k)
  | .swChk w i k => some (w.sem, i, k)
  | .swBefore w i k => some (w.sem, i, k)
  | .swAfter w i k => some (w.sem, i, k)
  | .swRem w i k _ => some (w.sem, i, k)
  | .wfLoop w i k _ _ _ => some (w.sem, i, k)
  | .wfChk w i k _ _ _ => some (w.sem, i, k)
  | .wfBefore w i k _ _ => some (w.sem, i, k)
  | .wfAfter w i k _ => some (w.sem, i, k)
  | .wfNow w i k _ _ => some (w.sem, i, k)
  | .wfRem w i _ k _ => some (w.sem, i, k)
  | _ => none

/-- The waiters that a notifier still has to signal. -/
def todo : SFrame α φ → List (Nat × Nat)
  | .nLoop _ l => l
  | .nCall _ _ _ l => l
  | .nAfter _ _ _ l => l
  | _ => []

/-- The waiter that a notifier is waking up. -/
def cur : SFrame α φ → Option (Nat × Nat)
  | .nCall _ i k _ => some (i, k)
  | .nAfter _ i k _ => some (i, k)
  | _ => none

/-- What a step does to the waiter lists. -/
inductive SemEff (v : View) (d d' : SData α) (f : SFrame α φ) : Prop
  | quiet (h1 : d'.sem = d.sem) (h2 : d'.tok = d.tok) (h3 : d'.ntok = d.ntok)
      (h4 : d'.slog = d.slog ∨ ∃ e, isSemEv e = false ∧ d'.slog = e :: d.slog)
  | add (w : W) (hf : f = .swIn w ∨ ∃ now e, f = .wfAdd w now e) (hn : ∀ x ∈ d.sem w.sem, x.1 ≠ v.id)
      (h1 : d'.sem = set d.sem w.sem (d.sem w.sem ++ [(v.id, d.ntok)])) (h2 : d'.tok = set d.tok d.ntok false) (h3 : d'.ntok = d.ntok + 1)
      (h4 : d'.slog = .enter v.tid w.sem v.id d.ntok :: d.slog)
  | rem (w : W) (i k : Nat) (y : Why) (hf : f = .swRem w i k y ∨ ∃ b, f = .wfRem w i b k y)
      (h1 : d'.sem = set d.sem w.sem ((d.sem w.sem).filter (fun x => !(x.1 == i)))) (h2 : d'.tok = d.tok) (h3 : d'.ntok = d.ntok)
      (h4 : d'.slog = .left v.tid w.sem ((d.sem w.sem).filter (fun x => x.1 == i)) k y :: d.slog)
  | take (S : SemId) (l r : List (Nat × Nat)) (hS : d.sem S = l ++ r) (hf : (∃ n, f = .n1In n) ∨ ∃ K, f = .naIn K)
      (h1 : d'.sem = set d.sem S r) (h2 : d'.tok = d.tok) (h3 : d'.ntok = d.ntok) (h4 : d'.slog = .took v.tid S l :: d.slog)
  | sig (K : NK α) (i k : Nat) (l : List (Nat × Nat)) (hf : f = .nLoop K ((i, k) :: l)) (hi : i ≠ 0)
      (h1 : d'.sem = d.sem) (h2 : d'.tok = set d.tok k true) (h3 : d'.ntok = d.ntok) (h4 : d'.slog = .sig v.tid k :: d.slog)

theorem eff_add {v : View} {d : SData α} {f : SFrame α φ} {w : W} (hf : f = .swIn w ∨ ∃ now e, f = .wfAdd w now e) :
    SemEff v d (d.addWaiter v.tid w.sem v.id).1 f := by
  unfold SData.addWaiter
  split
  · exact .quiet rfl rfl rfl (.inl rfl)
  · rename_i h
    refine .add w hf ?_ rfl rfl rfl rfl
    intro x hx
    have := List.find?_eq_none.1 h x hx
    simpa using this

theorem eff_rel {v : View} {d : SData α} {f : SFrame α φ} {L : Option Lk} : SemEff v d (d.relLk L) f := by
  cases L <;> exact .quiet rfl rfl rfl (.inl rfl)

theorem sem_eff {run destroy : α → φ} {v : View} {d d' : SData α} {rv : Val} {f : SFrame α φ} {a : Act (STask α) (SFrame α φ)}
    (hS : SS run destroy v d rv f d' a) : SemEff v d d' f := by
  cases hS
  case swIn w => exact eff_add (.inl rfl)
  case wfAdd w now e => exact eff_add (.inr ⟨_, _, rfl⟩)
  case swBefore => exact eff_rel
  case wfBefore => exact eff_rel
  case swRemC n m i k y => exact .rem (.cv n m) i k y (.inl rfl) rfl rfl rfl rfl
  case swRemM m j i k y => exact .rem (.mtx m j) i k y (.inl rfl) rfl rfl rfl rfl
  case swRemF p i k y => exact .rem (.fw p) i k y (.inl rfl) rfl rfl rfl rfl
  case swRemV p dur i k y => exact .rem (.fv p dur) i k y (.inl rfl) rfl rfl rfl rfl
  case wfRemC n m i k y b => exact .rem (.cv n m) i k y (.inr ⟨b, rfl⟩) rfl rfl rfl rfl
  case wfRemM m j i k y b => exact .rem (.mtx m j) i k y (.inr ⟨b, rfl⟩) rfl rfl rfl rfl
  case wfRemF p i k y b => exact .rem (.fw p) i k y (.inr ⟨b, rfl⟩) rfl rfl rfl rfl
  case wfRemV p dur i k y b => exact .rem (.fv p dur) i k y (.inr ⟨b, rfl⟩) rfl rfl rfl rfl
  case n1In n => exact .take (.cv n) _ _ (by cases d.sem (.cv n) <;> simp) (.inl ⟨n, rfl⟩) rfl rfl rfl rfl
  case naIn K => exact .take K.sem _ [] (by simp) (.inr ⟨K, rfl⟩) rfl rfl rfl rfl
  case nSig K i k l h => exact .sig K i k l rfl h rfl rfl rfl rfl
  all_goals first
    | exact .quiet rfl rfl rfl (.inl rfl)
    | exact .quiet rfl rfl rfl (.inr ⟨_, rfl, rfl⟩)

def goneT : SEv → List Nat
  | .took _ _ l => l.map Prod.snd
  | .left _ _ l _ _ => l.map Prod.snd
  | _ => []

/-- Tokens that were taken out of a waiter list. -/
def gone (log : List SEv) : List Nat := log.flatMap goneT

def entT : SEv → Option Nat
  | .enter _ _ _ k => some k
  | _ => none

structure SemI (d : SData α) : Prop where
  lt : ∀ {S x}, x ∈ d.sem S → x.2 < d.ntok
  inc : ∀ S, ((d.sem S).map Prod.snd).Pairwise (· < ·)
  ids : ∀ S, ((d.sem S).map Prod.fst).Nodup
  dis : ∀ {S S' x x'}, x ∈ d.sem S → x' ∈ d.sem S' → x.2 = x'.2 → S = S'
  goneLt : ∀ k ∈ gone d.slog, k < d.ntok
  goneNd : (gone d.slog).Nodup
  goneSem : ∀ {S x}, x ∈ d.sem S → x.2 ∉ gone d.slog
  cov : ∀ k < d.ntok, k ∈ gone d.slog ∨ ∃ S x, x ∈ d.sem S ∧ x.2 = k
  ent : ∀ {S i k}, (i, k) ∈ d.sem S → ∃ t, .enter t S i k ∈ d.slog
  tookEnt : ∀ {t S l i k}, .took t S l ∈ d.slog → (i, k) ∈ l → ∃ u, .enter u S i k ∈ d.slog
  leftEnt : ∀ {t S l k' y i k}, .left t S l k' y ∈ d.slog → (i, k) ∈ l → ∃ u, .enter u S i k ∈ d.slog
  entLt : ∀ {t S i k}, .enter t S i k ∈ d.slog → k < d.ntok
  entUq : ∀ {t S i k t' S' i'}, .enter t S i k ∈ d.slog → .enter t' S' i' k ∈ d.slog → t = t' ∧ S = S' ∧ i = i'
  later : ∀ {t S i k t' k'}, .enter t S i k ∈ d.slog → .enter t' S i k' ∈ d.slog → k < k' → k ∈ gone d.slog
  sigTook : ∀ {t k}, .sig t k ∈ d.slog → ∃ S l i, .took t S l ∈ d.slog ∧ (i, k) ∈ l ∧ i ≠ 0
  tokSig : ∀ k, d.tok k = true ↔ ∃ t, .sig t k ∈ d.slog
  entOrd : (d.slog.filterMap entT).Pairwise (· > ·)

theorem SemI.tokGone {d : SData α} (h : SemI d) {k : Nat} (hk : d.tok k = true) : k ∈ gone d.slog := by
  obtain ⟨t, ht⟩ := (h.tokSig k).1 hk
  obtain ⟨S, l, i, h1, h2, -⟩ := h.sigTook ht
  exact List.mem_flatMap.2 ⟨_, h1, List.mem_map.2 ⟨_, h2, rfl⟩⟩

theorem SemI.init : SemI ({} : SData α) where
  lt := by simp
  inc := by simp
  ids := by simp
  dis := by simp
  goneLt := by simp [gone]
  goneNd := by simp [gone]
  goneSem := by simp
  cov := by simp
  ent := by simp
  tookEnt := by simp
  leftEnt := by simp
  entLt := by simp
  entUq := by simp
  later := by simp
  sigTook := by simp
  tokSig := by simp
  entOrd := by simp

/-- The fields that only mention data that is unchanged, when a silent event is logged. -/
theorem gone_quiet {log : List SEv} {e : SEv} (h : isSemEv e = false) : gone (e :: log) = gone log := by
  simp only [gone, List.flatMap_cons]
  cases e <;> first | rfl | cases h

theorem ent_quiet {log : List SEv} {e : SEv} (h : isSemEv e = false) : (e :: log).filterMap entT = log.filterMap entT := by
  cases e <;> first | rfl | cases h

theorem SemI.quiet {d d' : SData α} (h : SemI d) (h1 : d'.sem = d.sem) (h2 : d'.tok = d.tok) (h3 : d'.ntok = d.ntok)
    (h4 : d'.slog = d.slog ∨ ∃ e, isSemEv e = false ∧ d'.slog = e :: d.slog) : SemI d' := by
  have hg : gone d'.slog = gone d.slog := by
    rcases h4 with h4 | ⟨e, he, h4⟩
    · rw [h4]
    · rw [h4, gone_quiet he]
  have ho : d'.slog.filterMap entT = d.slog.filterMap entT := by
    rcases h4 with h4 | ⟨e, he, h4⟩
    · rw [h4]
    · rw [h4, ent_quiet he]
  have hm : ∀ e, isSemEv e = true → (e ∈ d'.slog ↔ e ∈ d.slog) := by
    intro e he
    rcases h4 with h4 | ⟨e', he', h4⟩
    · rw [h4]
    · rw [h4, List.mem_cons]
      constructor
      · rintro (rfl | h)
        · rw [he] at he'; cases he'
        · exact h
      · exact .inr
  have m1 := fun {t S i k} => hm (.enter t S i k) rfl
  have m2 := fun {t S l} => hm (.took t S l) rfl
  have m3 := fun {t S l k y} => hm (.left t S l k y) rfl
  have m4 := fun {t k} => hm (.sig t k) rfl
  constructor <;> simp only [h1, h2, h3, hg, ho, m1, m2, m3, m4]
  · exact h.lt
  · exact h.inc
  · exact h.ids
  · exact h.dis
  · exact h.goneLt
  · exact h.goneNd
  · exact h.goneSem
  · exact h.cov
  · exact h.ent
  · exact h.tookEnt
  · exact h.leftEnt
  · exact h.entLt
  · exact h.entUq
  · exact h.later
  · exact h.sigTook
  · exact h.tokSig
  · exact h.entOrd

theorem SemI.sem_gone {d : SData α} (h : SemI d) {S : SemId} {i k : Nat} (hx : (i, k) ∈ d.sem S) : k ∉ gone d.slog := h.goneSem hx

theorem SemI.add {d d' : SData α} (h : SemI d) {t i : Nat} {S : SemId} (hn : ∀ x ∈ d.sem S, x.1 ≠ i)
    (h1 : d'.sem = set d.sem S (d.sem S ++ [(i, d.ntok)])) (h2 : d'.tok = set d.tok d.ntok false) (h3 : d'.ntok = d.ntok + 1)
    (h4 : d'.slog = .enter t S i d.ntok :: d.slog) : SemI d' := by
  have hg : gone d'.slog = gone d.slog := by rw [h4]; rfl
  have hm : ∀ {S' x}, x ∈ d'.sem S' → x ∈ d.sem S' ∨ (S' = S ∧ x = (i, d.ntok)) := by
    intro S' x hx
    rw [h1] at hx
    by_cases hS : S' = S
    · subst hS
      simp only [set_same, List.mem_append, List.mem_singleton] at hx
      rcases hx with hx | hx
      · exact .inl hx
      · exact .inr ⟨rfl, hx⟩
    · rw [set_ne _ _ hS] at hx; exact .inl hx
  have hm' : ∀ {S' x}, x ∈ d.sem S' → x ∈ d'.sem S' := by
    intro S' x hx
    rw [h1]
    by_cases hS : S' = S
    · subst hS; simp [hx]
    · rw [set_ne _ _ hS]; exact hx
  have hnew : (i, d.ntok) ∈ d'.sem S := by rw [h1]; simp
  have me : ∀ {t' S' i' k'}, .enter t' S' i' k' ∈ d'.slog → (t' = t ∧ S' = S ∧ i' = i ∧ k' = d.ntok) ∨ .enter t' S' i' k' ∈ d.slog := by
    intro t' S' i' k' hx
    rw [h4, List.mem_cons] at hx
    rcases hx with hx | hx
    · simp only [SEv.enter.injEq] at hx; exact .inl hx
    · exact .inr hx
  have me' : ∀ {e}, e ∈ d.slog → e ∈ d'.slog := by intro e he; rw [h4]; simp [he]
  have m2 : ∀ {t S l}, .took t S l ∈ d'.slog ↔ .took t S l ∈ d.slog := by intro t S l; rw [h4]; simp
  have m3 : ∀ {t S l k y}, .left t S l k y ∈ d'.slog ↔ .left t S l k y ∈ d.slog := by intro t S l k y; rw [h4]; simp
  have m4 : ∀ {t k}, .sig t k ∈ d'.slog ↔ .sig t k ∈ d.slog := by intro t k; rw [h4]; simp
  constructor
  · intro S' x hx
    rw [h3]
    rcases hm hx with hx | ⟨-, rfl⟩
    · have := h.lt hx; omega
    · simp
  · intro S'
    rw [h1]
    by_cases hS : S' = S
    · subst hS
      simp only [set_same, List.map_append, List.map_cons, List.map_nil, List.pairwise_append]
      refine ⟨h.inc _, by simp, ?_⟩
      intro a ha b hb
      simp only [List.mem_singleton] at hb; subst hb
      obtain ⟨x, hx, rfl⟩ := List.mem_map.1 ha
      exact h.lt hx
    · rw [set_ne _ _ hS]; exact h.inc _
  · intro S'
    rw [h1]
    by_cases hS : S' = S
    · subst hS
      simp only [set_same, List.map_append, List.map_cons, List.map_nil, List.nodup_append]
      refine ⟨h.ids _, by simp, ?_⟩
      intro a ha b hb
      simp only [List.mem_singleton] at hb; subst hb
      obtain ⟨x, hx, rfl⟩ := List.mem_map.1 ha
      exact hn x hx
    · rw [set_ne _ _ hS]; exact h.ids _
  · intro S1 S2 x1 x2 hx1 hx2 he
    rcases hm hx1 with a1 | ⟨a1, b1⟩ <;> rcases hm hx2 with a2 | ⟨a2, b2⟩
    · exact h.dis a1 a2 he
    · have := h.lt a1; subst b2; simp at he; omega
    · have := h.lt a2; subst b1; simp at he; omega
    · rw [a1, a2]
  · intro k hk; rw [hg] at hk; rw [h3]; have := h.goneLt k hk; omega
  · rw [hg]; exact h.goneNd
  · intro S' x hx
    rw [hg]
    rcases hm hx with hx | ⟨-, rfl⟩
    · exact h.goneSem hx
    · intro hk; have := h.goneLt _ hk; simp at this
  · intro k hk
    rw [h3] at hk; rw [hg]
    by_cases hk' : k = d.ntok
    · exact .inr ⟨S, _, hnew, hk'.symm⟩
    · rcases h.cov k (by omega) with h | ⟨S', x, hx, hxk⟩
      · exact .inl h
      · exact .inr ⟨S', x, hm' hx, hxk⟩
  · intro S' i' k' hx
    rcases hm hx with hx | ⟨rfl, hx⟩
    · obtain ⟨t, ht⟩ := h.ent hx; exact ⟨t, me' ht⟩
    · simp only [Prod.mk.injEq] at hx
      exact ⟨t, by rw [h4, hx.1, hx.2]; simp⟩
  · intro t' S' l i' k' hl hx
    obtain ⟨u, hu⟩ := h.tookEnt (m2.1 hl) hx; exact ⟨u, me' hu⟩
  · intro t' S' l k y i' k' hl hx
    obtain ⟨u, hu⟩ := h.leftEnt (m3.1 hl) hx; exact ⟨u, me' hu⟩
  · intro t' S' i' k' hx
    rw [h3]
    rcases me hx with ⟨-, -, -, rfl⟩ | hx
    · omega
    · have := h.entLt hx; omega
  · intro t1 S1 i1 k t2 S2 i2 hx1 hx2
    rcases me hx1 with ⟨rfl, rfl, rfl, rfl⟩ | hx1 <;> rcases me hx2 with ⟨rfl, rfl, rfl, hk⟩ | hx2
    · exact ⟨rfl, rfl, rfl⟩
    · have := h.entLt hx2; omega
    · have := h.entLt hx1; omega
    · exact h.entUq hx1 hx2
  · intro t1 S' i' k t2 k' hx1 hx2 hlt
    rw [hg]
    rcases me hx1 with ⟨-, -, -, rfl⟩ | hx1
    · rcases me hx2 with ⟨-, -, -, rfl⟩ | hx2
      · omega
      · have := h.entLt hx2; omega
    · rcases me hx2 with ⟨-, rfl, rfl, rfl⟩ | hx2
      · rcases h.cov k hlt with hk | ⟨S2, x, hx, rfl⟩
        · exact hk
        · obtain ⟨u, hu⟩ := h.ent (i := x.1) (k := x.2) hx
          obtain ⟨-, hSe, he⟩ := h.entUq hx1 hu
          subst hSe
          exact absurd he.symm (hn x hx)
      · exact h.later hx1 hx2 hlt
  · intro t' k hk
    obtain ⟨S', l, i', ha, hb⟩ := h.sigTook (m4.1 hk)
    exact ⟨S', l, i', m2.2 ha, hb⟩
  · intro k
    simp only [m4, h2]
    by_cases hk : k = d.ntok
    · subst hk
      simp only [set_same, Bool.false_eq_true, false_iff]
      rintro ⟨t', ht'⟩
      have := h.goneLt _ (h.tokGone ((h.tokSig _).2 ⟨t', ht'⟩))
      omega
    · rw [set_ne _ _ hk]; exact h.tokSig k
  · rw [h4]
    simp only [List.filterMap_cons, entT, List.pairwise_cons]
    refine ⟨?_, h.entOrd⟩
    intro k hk
    obtain ⟨e, he, hek⟩ := List.mem_filterMap.1 hk
    cases e <;> simp only [entT, Option.some.injEq, reduceCtorEq] at hek
    subst hek
    exact h.entLt he

/-- Some entries are taken out of one list. -/
theorem SemI.out {d d' : SData α} (h : SemI d) {S : SemId} {l r : List (Nat × Nat)} {e : SEv} (hp : (l ++ r).Perm (d.sem S)) (hs : r.Sublist (d.sem S))
    (he : goneT e = l.map Prod.snd) (he1 : ∀ t S i k, e ≠ .enter t S i k) (he2 : ∀ t S' l', e = .took t S' l' → S' = S ∧ l' = l)
    (he3 : ∀ t S' l' k y, e = .left t S' l' k y → S' = S ∧ l' = l) (he4 : ∀ t k, e ≠ .sig t k)
    (h1 : d'.sem = set d.sem S r) (h2 : d'.tok = d.tok) (h3 : d'.ntok = d.ntok) (h4 : d'.slog = e :: d.slog) : SemI d' := by
  have hg : gone d'.slog = l.map Prod.snd ++ gone d.slog := by rw [h4]; simp [gone, List.flatMap_cons, he]
  have hm : ∀ {S' x}, x ∈ d'.sem S' → x ∈ d.sem S' := by
    intro S' x hx
    rw [h1] at hx
    by_cases hS : S' = S
    · subst hS; rw [set_same] at hx; exact hs.subset hx
    · rw [set_ne _ _ hS] at hx; exact hx
  have hr : ∀ {x}, x ∈ d'.sem S → x ∈ r := by intro x hx; rw [h1, set_same] at hx; exact hx
  have hl : ∀ {x}, x ∈ l → x ∈ d.sem S := fun hx => hp.subset (by simp [hx])
  have hnd : ((l ++ r).map Prod.snd).Nodup := by
    refine (hp.map Prod.snd).nodup_iff.2 ?_
    exact (h.inc S).imp (fun h => Nat.ne_of_lt h)
  rw [List.map_append, List.nodup_append] at hnd
  have m1 : ∀ {t S i k}, .enter t S i k ∈ d'.slog ↔ .enter t S i k ∈ d.slog := by
    intro t S' i k; rw [h4, List.mem_cons]; exact ⟨fun h => h.elim (fun h => absurd h.symm (he1 t S' i k)) id, .inr⟩
  have m2 : ∀ {t S' l'}, .took t S' l' ∈ d'.slog → (S' = S ∧ l' = l) ∨ .took t S' l' ∈ d.slog := by
    intro t S' l' hx; rw [h4, List.mem_cons] at hx
    rcases hx with hx | hx
    · exact .inl (he2 _ _ _ hx.symm)
    · exact .inr hx
  have m3 : ∀ {t S' l' k y}, .left t S' l' k y ∈ d'.slog → (S' = S ∧ l' = l) ∨ .left t S' l' k y ∈ d.slog := by
    intro t S' l' k y hx; rw [h4, List.mem_cons] at hx
    rcases hx with hx | hx
    · exact .inl (he3 _ _ _ _ _ hx.symm)
    · exact .inr hx
  have m4 : ∀ {t k}, .sig t k ∈ d'.slog ↔ .sig t k ∈ d.slog := by
    intro t k; rw [h4, List.mem_cons]; exact ⟨fun h => h.elim (fun h => absurd h.symm (he4 t k)) id, .inr⟩
  have mm : ∀ {x}, x ∈ d.slog → x ∈ d'.slog := by intro x hx; rw [h4]; simp [hx]
  have hE : ∀ {i k}, (i, k) ∈ l → ∃ u, .enter u S i k ∈ d'.slog := by
    intro i k hx
    obtain ⟨u, hu⟩ := h.ent (hl hx); exact ⟨u, mm hu⟩
  constructor
  · intro S' x hx; rw [h3]; exact h.lt (hm hx)
  · intro S'
    rw [h1]
    by_cases hS : S' = S
    · subst hS; rw [set_same]; exact (h.inc S').sublist (hs.map _)
    · rw [set_ne _ _ hS]; exact h.inc _
  · intro S'
    rw [h1]
    by_cases hS : S' = S
    · subst hS; rw [set_same]; exact (h.ids S').sublist (hs.map _)
    · rw [set_ne _ _ hS]; exact h.ids _
  · intro S1 S2 x1 x2 a1 a2 hx; exact h.dis (hm a1) (hm a2) hx
  · intro k hk
    rw [hg, List.mem_append] at hk; rw [h3]
    rcases hk with hk | hk
    · obtain ⟨x, hx, rfl⟩ := List.mem_map.1 hk; exact h.lt (hl hx)
    · exact h.goneLt k hk
  · rw [hg, List.nodup_append]
    refine ⟨hnd.1, h.goneNd, ?_⟩
    intro a ha b hb hab
    obtain ⟨x, hx, rfl⟩ := List.mem_map.1 ha
    exact h.goneSem (hl hx) (hab ▸ hb)
  · intro S' x hx
    rw [hg, List.mem_append]
    rintro (hk | hk)
    · obtain ⟨y, hy, hyx⟩ := List.mem_map.1 hk
      have := h.dis (hl hy) (hm hx) hyx
      subst this
      exact hnd.2.2 _ hk _ (List.mem_map.2 ⟨x, hr hx, rfl⟩) rfl
    · exact h.goneSem (hm hx) hk
  · intro k hk
    rw [h3] at hk
    rw [hg, List.mem_append]
    rcases h.cov k hk with hk | ⟨S', x, hx, rfl⟩
    · exact .inl (.inr hk)
    · by_cases hS : S' = S
      · subst hS
        have := hp.symm.subset hx
        rcases List.mem_append.1 this with hx | hx
        · exact .inl (.inl (List.mem_map.2 ⟨x, hx, rfl⟩))
        · exact .inr ⟨S', x, by rw [h1, set_same]; exact hx, rfl⟩
      · exact .inr ⟨S', x, by rw [h1, set_ne _ _ hS]; exact hx, rfl⟩
  · intro S' i k hx
    obtain ⟨u, hu⟩ := h.ent (hm hx); exact ⟨u, mm hu⟩
  · intro t S' l' i k hx hi
    rcases m2 hx with ⟨rfl, rfl⟩ | hx
    · exact hE hi
    · obtain ⟨u, hu⟩ := h.tookEnt hx hi; exact ⟨u, mm hu⟩
  · intro t S' l' k' y i k hx hi
    rcases m3 hx with ⟨rfl, rfl⟩ | hx
    · exact hE hi
    · obtain ⟨u, hu⟩ := h.leftEnt hx hi; exact ⟨u, mm hu⟩
  · intro t S' i k hx; rw [h3]; exact h.entLt (m1.1 hx)
  · intro t S1 i k t' S2 i' a b; exact h.entUq (m1.1 a) (m1.1 b)
  · intro t S1 i k t' k' a b hlt
    rw [hg]; exact List.mem_append.2 (.inr (h.later (m1.1 a) (m1.1 b) hlt))
  · intro t k hk
    obtain ⟨S', l', i, a, b⟩ := h.sigTook (m4.1 hk)
    exact ⟨S', l', i, mm a, b⟩
  · intro k; simp only [m4, h2]; exact h.tokSig k
  · rw [h4]
    have : (e :: d.slog).filterMap entT = d.slog.filterMap entT := by
      cases e <;> first | rfl | exact absurd rfl (he1 _ _ _ _)
    rw [this]; exact h.entOrd

theorem SemI.sig {d d' : SData α} (h : SemI d) {t i k : Nat} {S : SemId} {l : List (Nat × Nat)} (ht : .took t S l ∈ d.slog) (hi : i ≠ 0)
    (hl : (i, k) ∈ l) (h1 : d'.sem = d.sem) (h2 : d'.tok = set d.tok k true) (h3 : d'.ntok = d.ntok) (h4 : d'.slog = .sig t k :: d.slog) :
    SemI d' := by
  have hg : gone d'.slog = gone d.slog := by rw [h4]; rfl
  have ho : d'.slog.filterMap entT = d.slog.filterMap entT := by rw [h4]; rfl
  have m1 : ∀ {t S i k}, .enter t S i k ∈ d'.slog ↔ .enter t S i k ∈ d.slog := by intro t S i k; rw [h4]; simp
  have m2 : ∀ {t S l}, .took t S l ∈ d'.slog ↔ .took t S l ∈ d.slog := by intro t S l; rw [h4]; simp
  have m3 : ∀ {t S l k y}, .left t S l k y ∈ d'.slog ↔ .left t S l k y ∈ d.slog := by intro t S l k y; rw [h4]; simp
  have m4 : ∀ {t' k'}, .sig t' k' ∈ d'.slog ↔ (t' = t ∧ k' = k) ∨ .sig t' k' ∈ d.slog := by intro t' k'; rw [h4]; simp
  constructor <;> try simp only [h1, h3, hg, ho, m1, m2, m3]
  · exact h.lt
  · exact h.inc
  · exact h.ids
  · exact h.dis
  · exact h.goneLt
  · exact h.goneNd
  · exact h.goneSem
  · exact h.cov
  · exact h.ent
  · exact h.tookEnt
  · exact h.leftEnt
  · exact h.entLt
  · exact h.entUq
  · exact h.later
  · intro t' k' hk
    rcases m4.1 hk with ⟨rfl, rfl⟩ | hk
    · exact ⟨S, l, i, ht, hl, hi⟩
    · exact h.sigTook hk
  · intro k'
    simp only [m4, h2, set]
    split
    · rename_i hk; simp [hk]
    · rename_i hk; simp only [hk, and_false, false_or]; exact h.tokSig k'
  · exact h.entOrd

/-- What is known of the program points of waits and notifications. -/
structure SemT (d : SData α) (t : Nat) (f : SFrame α φ) : Prop where
  wt : ∀ S i k, wtok f = some (S, i, k) → ∃ u, .enter u S i k ∈ d.slog
  td : ∀ x ∈ todo f, ∃ S l, .took t S l ∈ d.slog ∧ x ∈ l
  nd : ((todo f).map Prod.snd).Nodup
  cr : ∀ i k, cur f = some (i, k) → (∃ S l, .took t S l ∈ d.slog ∧ (i, k) ∈ l) ∧ d.tok k = true ∧ i ≠ 0
  nin : ∀ i k, cur f = some (i, k) → k ∉ (todo f).map Prod.snd

theorem SemT.triv {d : SData α} {t : Nat} {f : SFrame α φ} (h1 : wtok f = none) (h2 : todo f = []) (h3 : cur f = none) : SemT d t f :=
  ⟨by simp [h1], by simp [h2], by simp [h2], by simp [h3], by simp [h3]⟩

theorem SemI.took_lt {d : SData α} (h : SemI d) {t : Nat} {S : SemId} {l : List (Nat × Nat)} {x : Nat × Nat} (hl : .took t S l ∈ d.slog) (hx : x ∈ l) :
    x.2 < d.ntok := by
  obtain ⟨u, hu⟩ := h.tookEnt (i := x.1) (k := x.2) hl hx
  exact h.entLt hu

theorem SemT.mono {d d' : SData α} (hd : SemI d) (he : Ext d d') {t : Nat} {f : SFrame α φ} (h : SemT d t f) : SemT d' t f where
  wt S i k hw := by obtain ⟨u, hu⟩ := h.wt S i k hw; exact ⟨u, he.mem hu⟩
  td x hx := by obtain ⟨S, l, h1, h2⟩ := h.td x hx; exact ⟨S, l, he.mem h1, h2⟩
  nd := h.nd
  cr i k hc := by
    obtain ⟨⟨S, l, h1, h2⟩, h3, h4⟩ := h.cr i k hc
    exact ⟨⟨S, l, he.mem h1, h2⟩, he.tok (hd.took_lt h1 h2) h3, h4⟩
  nin := h.nin

theorem SemT.sw {d : SData α} {t : Nat} {f g : SFrame α φ} (h : SemT d t f) (h1 : wtok g = wtok f) (h2 : todo g = []) (h3 : cur g = none) :
    SemT d t g := ⟨by rw [h1]; exact h.wt, by simp [h2], by simp [h2], by simp [h3], by simp [h3]⟩

theorem semI_step {run destroy : α → φ} {v : View} {d d' : SData α} {rv : Val} {f : SFrame α φ} {a : Act (STask α) (SFrame α φ)}
    (h : SemI d) (ht : SemT d v.tid f) (hS : SS run destroy v d rv f d' a) : SemI d' := by
  cases sem_eff hS with
  | quiet h1 h2 h3 h4 => exact h.quiet h1 h2 h3 h4
  | add w hf hn h1 h2 h3 h4 => exact h.add hn h1 h2 h3 h4
  | rem w i k y hf h1 h2 h3 h4 =>
    refine h.out (l := (d.sem w.sem).filter (fun x => x.1 == i)) ?_ List.filter_sublist rfl ?_ ?_ ?_ ?_ h1 h2 h3 h4
    · exact List.filter_append_perm _ _
    · simp
    · simp
    · simp only [SEv.left.injEq]; rintro _ _ _ _ _ ⟨-, rfl, rfl, -, -⟩; exact ⟨rfl, rfl⟩
    · simp
  | take S l r hsm hf h1 h2 h3 h4 =>
    refine h.out (l := l) (S := S) (hsm ▸ List.Perm.refl _) (hsm ▸ List.sublist_append_right l r) rfl ?_ ?_ ?_ ?_ h1 h2 h3 h4
    · simp
    · simp only [SEv.took.injEq]; rintro _ _ _ ⟨-, rfl, rfl⟩; exact ⟨rfl, rfl⟩
    · simp
    · simp
  | sig K i k l hf hi h1 h2 h3 h4 =>
    subst hf
    obtain ⟨S, l', ht, hl⟩ := ht.td (i, k) (by simp [todo])
    exact h.sig ht hi hl h1 h2 h3 h4

theorem add_ent {d : SData α} (h : SemI d) {t i : Nat} {S : SemId} :
    ∃ u, .enter u S i (d.addWaiter t S i).2 ∈ (d.addWaiter t S i).1.slog := by
  unfold SData.addWaiter
  split
  · rename_i w hw
    have h1 := List.mem_of_find?_eq_some hw
    have h2 := List.find?_some hw
    obtain ⟨x, k⟩ := w
    simp only [beq_iff_eq] at h2
    subst h2
    exact h.ent h1
  · exact ⟨t, by simp⟩

theorem take_td {d : SData α} (h : SemI d) {S : SemId} {l r : List (Nat × Nat)} (hS : d.sem S = l ++ r) : (l.map Prod.snd).Nodup := by
  have := h.inc S
  rw [hS, List.map_append, List.pairwise_append] at this
  exact this.1.imp (fun h => Nat.ne_of_lt h)

theorem laNext_semT {d : SData α} {t : Nat} {K : LK α} {c : Kont α} {b : Bool} :
    ActOK (SemT (φ := φ) d) (fun _ => True) t (laNext K c b) := by
  cases K <;> cases b <;> simp only [laNext, ActOK] <;> first | trivial | exact .triv rfl rfl rfl | exact ⟨.triv rfl rfl rfl, .triv rfl rfl rfl⟩

theorem semT_step {run destroy : α → φ} {v : View} {d d' : SData α} {rv : Val} {f : SFrame α φ} {a : Act (STask α) (SFrame α φ)}
    (h : SemI d) (ht : SemT d v.tid f) (hS : SS run destroy v d rv f d' a) : ActOK (SemT (φ := φ) d') (fun _ => True) v.tid a := by
  have hd' := semI_step h ht hS
  have hm : SemT d' v.tid f := ht.mono h hS.ext
  cases hS
  case swIn w =>
    refine ⟨?_, by simp [todo], by simp [todo], by simp [cur], by simp [cur]⟩
    intro S i k hw; simp only [wtok, Option.some.injEq, Prod.mk.injEq] at hw
    obtain ⟨rfl, rfl, rfl⟩ := hw
    exact add_ent h
  case wfAdd w now e =>
    refine ⟨?_, by simp [todo], by simp [todo], by simp [cur], by simp [cur]⟩
    intro S i k hw; simp only [wtok, Option.some.injEq, Prod.mk.injEq] at hw
    obtain ⟨rfl, rfl, rfl⟩ := hw
    exact add_ent h
  case n1In n =>
    refine ⟨by simp [wtok], ?_, ?_, by simp [cur], by simp [cur]⟩
    · intro x hx; exact ⟨_, _, List.mem_cons_self, hx⟩
    · exact take_td h (S := .cv n) (r := (d.sem (.cv n)).tail) (by cases d.sem (.cv n) <;> simp [todo])
  case naIn K =>
    refine ⟨by simp [wtok], ?_, ?_, by simp [cur], by simp [cur]⟩
    · intro x hx; exact ⟨_, _, List.mem_cons_self, hx⟩
    · exact take_td h (S := K.sem) (r := []) (by simp [todo])
  case nSkip K k l =>
    have hn := hm.nd
    simp only [todo, List.map_cons, List.nodup_cons] at hn
    exact ⟨by simp [wtok], fun x hx => hm.td x (by simp only [todo] at hx ⊢; simp [hx]), hn.2, by simp [cur], by simp [cur]⟩
  case nSig K i k l hi =>
    have hn := hm.nd
    simp only [todo, List.map_cons, List.nodup_cons] at hn
    refine ⟨by simp [wtok], fun x hx => hm.td x (by simp only [todo] at hx ⊢; simp [hx]), hn.2, ?_, ?_⟩
    · intro i' k' hc
      simp only [cur, Option.some.injEq, Prod.mk.injEq] at hc
      obtain ⟨rfl, rfl⟩ := hc
      exact ⟨hm.td _ (by simp [todo]), by simp, hi⟩
    · intro i' k' hc
      simp only [cur, Option.some.injEq, Prod.mk.injEq] at hc
      obtain ⟨rfl, rfl⟩ := hc
      exact hn.1
  case nCall K i k l => exact ⟨⟨hm.wt, hm.td, hm.nd, hm.cr, hm.nin⟩, trivial⟩
  case nAfter K i k l => exact ⟨by simp [wtok], hm.td, hm.nd, by simp [cur], by simp [cur]⟩
  case laRet K c => exact laNext_semT
  case laEnd K c => exact laNext_semT
  all_goals first
    | exact trivial
    | exact hm.sw rfl rfl rfl
    | exact ⟨hm.sw rfl rfl rfl, trivial⟩
    | exact .triv rfl rfl rfl
    | exact ⟨.triv rfl rfl rfl, .triv rfl rfl rfl⟩

theorem sThrow_semT {onThrow : φ → Exn → Option φ} {d : SData α} {t : Nat} {f f' : SFrame α φ} {e : Exn} (h : sThrow onThrow f e = some f') :
    SemT d t f' := by
  cases f <;> simp only [sThrow, Option.some.injEq, reduceCtorEq, Option.map_eq_some_iff] at h
  · obtain ⟨x, -, rfl⟩ := h; exact .triv rfl rfl rfl
  all_goals subst h; exact .triv rfl rfl rfl

def semTy (A : App α φ δ χ) (ad : δ) (f0 : φ) : STy A (SR A ad f0) where
  I := SemI
  PF := SemT
  PT _ _ := True
  app := .triv rfl rfl rfl
  entry := by intro d t a; cases a <;> exact .triv rfl rfl rfl
  tapp := trivial
  step := by
    intro s t f rest d' a hj he hst hi hp hS
    have hv : (s.view t).tid = t := rfl
    exact ⟨semI_step hi hp hS, fun u g hg => hg.mono hi hS.ext, fun _ _ => trivial, semT_step hi hp hS⟩
  done := .triv rfl rfl rfl
  task := fun _ _ => ⟨.triv rfl rfl rfl, .triv rfl rfl rfl⟩
  throw := fun _ _ _ _ _ h => sThrow_semT h

theorem sem_I {A : App α φ δ χ} {ad : δ} {f0 : φ} {s : SSt α φ δ} (h : SR A ad f0 s) : SemI s.data.sd :=
  ((semTy A ad f0).sound SemI.init h).data

theorem sem_F {A : App α φ δ χ} {ad : δ} {f0 : φ} {s : SSt α φ δ} (h : SR A ad f0 s) {t : Nat} {f : SFrame α φ} (hf : .client f ∈ s.stk t) :
    SemT s.data.sd t f := ((semTy A ad f0).sound SemI.init h).fr t _ hf

/-! ## Waiters that were taken and not yet signalled -/

def tookBy (t k : Nat) : SEv → Bool
  | .took u _ l => u == t && l.any (fun x => x.2 == k && x.1 != 0)
  | _ => false

def taken (log : List SEv) (t k : Nat) : Bool := log.any (tookBy t k)

theorem taken_iff {log : List SEv} {t k : Nat} : taken log t k = true ↔ ∃ S l i, .took t S l ∈ log ∧ (i, k) ∈ l ∧ i ≠ 0 := by
  simp only [taken, List.any_eq_true]
  constructor
  · rintro ⟨e, he, h⟩
    cases e <;> simp only [tookBy, Bool.and_eq_true, beq_iff_eq, List.any_eq_true, bne_iff_ne, reduceCtorEq] at h
    rename_i u S l
    obtain ⟨rfl, ⟨i, k'⟩, hx, h1, h2⟩ := h
    simp only at h1
    subst h1
    exact ⟨S, l, i, he, hx, h2⟩
  · rintro ⟨S, l, i, he, hx, hi⟩
    exact ⟨_, he, by simp only [tookBy, Bool.and_eq_true, beq_iff_eq, List.any_eq_true, bne_iff_ne]; exact ⟨trivial, _, hx, rfl, hi⟩⟩

theorem SemI.taken_gone {d : SData α} {t k : Nat} (hk : taken d.slog t k = true) : k ∈ gone d.slog := by
  obtain ⟨S, l, i, h1, h2, -⟩ := taken_iff.1 hk
  exact List.mem_flatMap.2 ⟨_, h1, List.mem_map.2 ⟨_, h2, rfl⟩⟩

/-- A token leaves the lists in one event only. -/
theorem SemI.gone_uniq {d : SData α} (h : SemI d) {e e' : SEv} {k : Nat} (he : e ∈ d.slog) (he' : e' ∈ d.slog) (hk : k ∈ goneT e) (hk' : k ∈ goneT e') :
    e = e' := by
  have key : ∀ log : List SEv, (gone log).Nodup → e ∈ log → e' ∈ log → e = e' := by
    intro log
    induction log with
    | nil => simp
    | cons x log ih =>
      intro hn h1 h2
      simp only [gone, List.flatMap_cons, List.nodup_append] at hn
      have hin : ∀ y ∈ log, k ∈ goneT y → k ∈ gone log := fun y hy hk => List.mem_flatMap.2 ⟨y, hy, hk⟩
      rcases List.mem_cons.1 h1 with rfl | h3 <;> rcases List.mem_cons.1 h2 with rfl | h4
      · rfl
      · exact absurd rfl (hn.2.2 k hk k (hin _ h4 hk'))
      · exact absurd rfl (hn.2.2 k hk' k (hin _ h3 hk))
      · exact ih hn.2.1 h3 h4
  exact key _ h.goneNd he he'

theorem SemI.taker_uniq {d : SData α} (h : SemI d) {t u k : Nat} (ht : taken d.slog t k = true) (hu : taken d.slog u k = true) : t = u := by
  obtain ⟨S, l, i, h1, h2, -⟩ := taken_iff.1 ht
  obtain ⟨S', l', i', h3, h4, -⟩ := taken_iff.1 hu
  have := h.gone_uniq h1 h3 (k := k) (List.mem_map.2 ⟨_, h2, rfl⟩) (List.mem_map.2 ⟨_, h4, rfl⟩)
  simp only [SEv.took.injEq] at this
  exact this.1

def inl (k : Nat) (l : List (Nat × Nat)) : Nat := l.countP (fun x => x.2 == k && x.1 != 0)

def tw (k : Nat) (f : SFrame α φ) : Nat := inl k (todo f)

def town (k : Nat) (d : SData α) (t : Nat) : Nat := one (taken d.slog t k && !d.tok k)

def TOk (k : Nat) (d d' : SData α) (t wf wa : Nat) : Prop :=
  wa + town k d t = wf + town k d' t ∧ ∀ u, u ≠ t → town k d' u = town k d u

theorem TOk.keep {k : Nat} {d d' : SData α} {t wf wa : Nat} (h1 : d'.tok = d.tok) (h2 : ∀ u, taken d'.slog u k = taken d.slog u k) (hw : wa = wf) :
    TOk k d d' t wf wa := by simp [TOk, town, h1, h2, hw]

theorem taken_cons {e : SEv} {log : List SEv} {u k : Nat} (h : ∀ t S l, e ≠ .took t S l) : taken (e :: log) u k = taken log u k := by
  simp only [taken, List.any_cons]
  cases e <;> first | rfl | exact absurd rfl (h _ _ _)

theorem inl_le {k : Nat} {l : List (Nat × Nat)} (h : (l.map Prod.snd).Nodup) : inl k l ≤ 1 := by
  induction l with
  | nil => simp [inl]
  | cons x l ih =>
    simp only [List.map_cons, List.nodup_cons] at h
    have := ih h.2
    simp only [inl, List.countP_cons] at this ⊢
    by_cases hx : x.2 = k
    · have hz : List.countP (fun x => x.2 == k && x.1 != 0) l = 0 := by
        rw [List.countP_eq_zero]
        intro y hy hc
        simp only [Bool.and_eq_true, beq_iff_eq] at hc
        exact h.1 (List.mem_map.2 ⟨y, hy, hc.1.trans hx.symm⟩)
      rw [hz]; split <;> omega
    · simp [hx]; exact this

theorem inl_pos {k : Nat} {l : List (Nat × Nat)} : 0 < inl k l ↔ ∃ i, (i, k) ∈ l ∧ i ≠ 0 := by
  simp only [inl, List.countP_pos_iff, Bool.and_eq_true, beq_iff_eq, bne_iff_ne]
  constructor
  · rintro ⟨⟨i, k'⟩, h1, h2, h3⟩; simp only at h2; subst h2; exact ⟨i, h1, h3⟩
  · rintro ⟨i, h1, h2⟩; exact ⟨_, h1, rfl, h2⟩

theorem TOk.take {k : Nat} {d d' : SData α} {t wf wa : Nat} {S : SemId} {l r : List (Nat × Nat)} (h : SemI d) (hS : d.sem S = l ++ r)
    (h1 : d'.tok = d.tok) (h4 : d'.slog = .took t S l :: d.slog) (hf : wf = 0) (ha : wa = inl k l) : TOk k d d' t wf wa := by
  subst hf ha
  have hc : ∀ u, taken d'.slog u k = ((u == t) && decide (0 < inl k l) || taken d.slog u k) := by
    intro u
    rw [Bool.eq_iff_iff, taken_iff, h4]
    simp only [Bool.or_eq_true, Bool.and_eq_true, beq_iff_eq, decide_eq_true_iff, inl_pos, taken_iff, List.mem_cons, SEv.took.injEq]
    constructor
    · rintro ⟨S', l', i, ⟨rfl, rfl, rfl⟩ | h, h2, h3⟩
      · exact .inl ⟨rfl, i, h2, h3⟩
      · exact .inr ⟨S', l', i, h, h2, h3⟩
    · rintro (⟨rfl, i, h2, h3⟩ | ⟨S', l', i, h, h2, h3⟩)
      · exact ⟨S, l, i, .inl ⟨rfl, rfl, rfl⟩, h2, h3⟩
      · exact ⟨S', l', i, .inr h, h2, h3⟩
  refine ⟨?_, ?_⟩
  · simp only [town, hc, h1, beq_self_eq_true, Bool.true_and]
    by_cases hp : 0 < inl k l
    · have hle := inl_le (k := k) (take_td h hS)
      obtain ⟨i, hi, -⟩ := inl_pos.1 hp
      have hin : (i, k) ∈ d.sem S := by rw [hS]; simp [hi]
      have hg := h.goneSem hin
      have ht : taken d.slog t k = false := by
        by_contra hc; exact hg (SemI.taken_gone (by simpa using hc))
      have htk : d.tok k = false := by
        by_contra hc; exact hg (h.tokGone (by simpa using hc))
      simp [hp, ht, htk, one]; omega
    · have : inl k l = 0 := by omega
      simp [this]
  · intro u hu
    have : (u == t) = false := by simpa using hu
    simp [town, hc, h1, this]

theorem laNext_tw {k : Nat} {K : LK α} {c : Kont α} {b : Bool} {f : SFrame α φ} :
    (laNext K c b : Act (STask α) (SFrame α φ)).wt (tw k) f = 0 := by
  cases K <;> cases b <;> rfl

theorem TOk.add {k : Nat} {d : SData α} {t wf : Nat} {S : SemId} {i u : Nat} (h : SemI d) : TOk k d (d.addWaiter u S i).1 t wf wf := by
  unfold SData.addWaiter
  split
  · exact TOk.keep rfl (fun _ => rfl) rfl
  · have hc : ∀ v, town k ({ d with sem := set d.sem S (d.sem S ++ [(i, d.ntok)]), tok := set d.tok d.ntok false, ntok := d.ntok + 1, slog := .enter u S i d.ntok :: d.slog } : SData α) v = town k d v := by
      intro v
      simp only [town]
      rw [taken_cons (by simp)]
      by_cases hk : k = d.ntok
      · have : taken d.slog v k = false := by
          by_contra hc
          have := h.goneLt _ (SemI.taken_gone (by simpa using hc))
          omega
        simp [this]
      · rw [set_ne _ _ hk]
    exact ⟨by rw [hc], fun v _ => hc v⟩

theorem took_step {run destroy : α → φ} {v : View} {d d' : SData α} {rv : Val} {f : SFrame α φ} {a : Act (STask α) (SFrame α φ)} {k r : Nat}
    (hi : SemI d) (hf : SemT d v.tid f) (h : SS run destroy v d rv f d' a) (hown : tw k f + r = town k d v.tid) :
    TOk k d d' v.tid (tw k f) (a.wt (tw k) f) := by
  cases h
  case laRet => exact TOk.keep rfl (fun _ => rfl) laNext_tw
  case laEnd => exact TOk.keep rfl (fun _ => rfl) laNext_tw
  case swIn => exact TOk.add hi
  case wfAdd => exact TOk.add hi
  case swBefore w i k => cases w <;> exact TOk.keep rfl (fun _ => rfl) rfl
  case wfBefore w i k _ _ => cases w <;> exact TOk.keep rfl (fun _ => rfl) rfl
  case n1In n => exact TOk.take hi (S := .cv n) (r := (d.sem (.cv n)).tail) (by cases d.sem (.cv n) <;> simp) rfl rfl rfl rfl
  case naIn K => exact TOk.take hi (S := K.sem) (r := []) (by simp) rfl rfl rfl rfl
  case nSkip K k' l => exact TOk.keep rfl (fun _ => rfl) (by simp [Act.wt, tw, todo, inl])
  case nSig K i k' l hi0 =>
    simp only [Act.wt]
    by_cases hk : k' = k
    · subst hk
      have hw : tw (φ := φ) k' (.nLoop K ((i, k') :: l)) = 1 + tw (φ := φ) k' (.nCall K i k' l) := by
        simp [tw, todo, inl, hi0]; omega
      rw [hw] at hown ⊢
      have hle : town k' d v.tid ≤ 1 := one_le _
      have h1 : town k' d v.tid = 1 := by omega
      have ht : taken d.slog v.tid k' = true := by
        by_contra hc; simp [town, hc, one] at h1
      refine ⟨?_, ?_⟩
      · rw [h1]; simp [town, one]; omega
      · intro u hu
        have : taken d.slog u k' = false := by
          by_contra hc; exact hu (hi.taker_uniq (by simpa using hc) ht)
        simp only [town]
        rw [taken_cons (by simp)]
        simp [this]
    · have hw : tw (φ := φ) k (.nLoop K ((i, k') :: l)) = tw (φ := φ) k (.nCall K i k' l) := by
        simp [tw, todo, inl, hk]
      have hc : ∀ u, town k ({ d with tok := set d.tok k' true, slog := .sig v.tid k' :: d.slog } : SData α) u = town k d u := by
        intro u
        simp only [town]
        rw [taken_cons (by simp), set_ne _ _ (fun h => hk h.symm)]
      exact ⟨by rw [hw, hc], fun u _ => hc u⟩
  all_goals exact TOk.keep rfl (fun _ => rfl) rfl

theorem entry_tw {p : Nat} (a : SApi α) : tw (φ := φ) p a.entry = 0 := by cases a <;> rfl

def tcnt (A : App α φ δ χ) (ad : δ) (f0 : φ) (p : Nat) : Counting (client A) (SR A ad f0) (stk A ad f0) where
  w := tw p
  own d t := town p d.sd t
  step := by
    intro s t ch f rest d' a hj he hst hs hown
    cases client_cs hs with
    | app g ad sa hA =>
      refine ⟨?_, fun _ _ => rfl⟩
      have : (liftAct sa).wt (tw p) (.app g : SFrame α φ) = 0 := by
        cases sa <;> simp only [liftAct, Act.wt]
        case sync a k => rw [entry_tw]; rfl
        all_goals rfl
      rw [this]; rfl
    | sync f sd a hS => exact took_step (sem_I hj) (sem_F (t := t) hj (by rw [hst]; simp)) hS hown
  run k := by cases k <;> rfl
  destroy k := by cases k <;> rfl
  api := by
    intro s t ch f rest d' a k hj hst hs
    have key : ∀ x, (client A).step (s.view t) s.data f (s.thr t).rv ch = some (d', x) → x = .call a k →
        ApiOK (fun _ f => tw p f = 0) (fun _ => True) a := by
      intro x hs hx
      cases client_cs hs with
      | app g ad sa hA =>
        cases sa <;> simp [liftAct] at hx
        obtain ⟨rfl, -⟩ := hx
        exact mapApi_ok (fun _ _ => rfl) (fun _ => trivial) _
      | sync f sd x hS =>
        cases hS
        case laRet K c => exact (laNext_call hx).elim
        case laEnd K c => exact (laNext_call hx).elim
        all_goals first | (cases hx; done) | (cases hx; trivial)
    exact key _ hs rfl
  handler := by
    intro g e g' hn ht
    cases g <;> first
      | (cases ht; done)
      | exact absurd trivial hn
      | (have ht := Option.some.inj ht; subst ht; rfl)
      | skip
    simp only [client, sThrow, Option.map_eq_some_iff] at ht
    obtain ⟨x, -, rfl⟩ := ht
    rfl
  pop := by
    intro g e hn ht
    cases g <;> first
      | rfl
      | exact absurd trivial hn

theorem wsum_pos {w : SFrame α φ → Nat} {l : List (Fr α φ)} (h : 0 < wsum w l) : ∃ g, .client g ∈ l ∧ 0 < w g := by
  induction l with
  | nil => simp [wsum] at h
  | cons x l ih =>
    cases x with
    | core f =>
      rw [wsum_core] at h
      obtain ⟨g, h1, h2⟩ := ih h
      exact ⟨g, by simp [h1], h2⟩
    | client f =>
      rw [wsum_client] at h
      by_cases hf : 0 < w f
      · exact ⟨f, by simp, hf⟩
      · obtain ⟨g, h1, h2⟩ := ih (by omega)
        exact ⟨g, by simp [h1], h2⟩

/-- A waiter that was taken and not yet signalled is still to be signalled by the thread that took it. -/
theorem inflight {A : App α φ δ χ} {ad : δ} {f0 : φ} {s : SSt α φ δ} (h : SR A ad f0 s) {t k i : Nat} {S : SemId} {l : List (Nat × Nat)}
    (ht : .took t S l ∈ s.data.sd.slog) (hl : (i, k) ∈ l) (hi : i ≠ 0) (hk : s.data.sd.tok k = false) :
    ∃ g j, .client g ∈ s.stk t ∧ (j, k) ∈ todo g ∧ j ≠ 0 := by
  have h1 := ((tcnt A ad f0 k).sound (fun _ h => h) rfl (fun _ => rfl) h).sum t
  have h2 : taken s.data.sd.slog t k = true := taken_iff.2 ⟨S, l, i, ht, hl, hi⟩
  have h3 : wsum (tw k) (s.stk t) = 1 := by
    refine h1.trans ?_
    simp [tcnt, town, h2, hk, one]
  obtain ⟨g, h4, h5⟩ := wsum_pos (w := tw k) (by omega : 0 < wsum (tw k) (s.stk t))
  obtain ⟨j, h6, h7⟩ := inl_pos.1 h5
  exact ⟨g, j, h4, h6, h7⟩

/-- A waiter that a thread still has to signal is not signalled yet. -/
theorem todo_tok {A : App α φ δ χ} {ad : δ} {f0 : φ} {s : SSt α φ δ} (h : SR A ad f0 s) {t k i : Nat} {g : SFrame α φ} (hg : .client g ∈ s.stk t)
    (hl : (i, k) ∈ todo g) (hi : i ≠ 0) : s.data.sd.tok k = false := by
  have h1 := ((tcnt A ad f0 k).sound (fun _ h => h) rfl (fun _ => rfl) h).sum t
  have h2 := wsum_mem (w := tw k) hg
  have h3 : 0 < tw k g := inl_pos.2 ⟨i, hl, hi⟩
  by_contra hc
  have : town k s.data.sd t = 0 := by simp only [town, Bool.not_eq_false] at hc ⊢; simp [hc, one]
  have h4 : wsum (tw k) (s.stk t) = 0 := h1.trans this
  omega
end
end Sync
end Itc
