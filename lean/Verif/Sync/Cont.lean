import Verif.Sync.Lin
import Verif.Sync.Set
import Verif.Sync.Act

/-!
# Continuations: the order of launches, who still has to launch what (proof infrastructure, no claims)
-/
namespace Itc
namespace Core
section
variable {τ φ δ χ : Type}

theorem Rel.le {b : Bool} {x y : Nat} (h : Rel b x y) : x ≤ y := by
  cases b <;> simp [Rel] at h <;> omega

theorem Lin.Ok.le {C : Client τ φ δ χ} {J : St τ φ δ → Prop} {S : Stacking C J} {L : Lin C J S} {s : St τ φ δ} (q : L.Ok s) (t : Nat) :
    thw L.toWts s t + L.out s.data ≤ L.inn s.data := by
  obtain ⟨N, h1, h2⟩ := q
  have h2 := h2.le
  by_cases ht : t < N
  · have := nsum_le (f := thw L.toWts s) ht; omega
  · rw [thw_nil (h1 t (by omega)).1]; omega

theorem Lin.Ok.le2 {C : Client τ φ δ χ} {J : St τ φ δ → Prop} {S : Stacking C J} {L : Lin C J S} {s : St τ φ δ} (q : L.Ok s) {t u : Nat}
    (htu : t ≠ u) : thw L.toWts s t + thw L.toWts s u + L.out s.data ≤ L.inn s.data := by
  have ht := q.le t
  have hu := q.le u
  obtain ⟨N, h1, h2⟩ := q
  have h2 := h2.le
  by_cases h : t < N
  · by_cases h' : u < N
    · have := nsum_le2 (f := thw L.toWts s) htu h h'; omega
    · rw [thw_nil (h1 u (by omega)).1]; omega
  · rw [thw_nil (h1 t (by omega)).1]; omega

theorem Lin.Ok.pend {C : Client τ φ δ χ} {J : St τ φ δ → Prop} {S : Stacking C J} {L : Lin C J S} {s : St τ φ δ} (q : L.Ok s) (t : Nat) {c : Nat} {k : τ}
    (hk : k ∈ (s.ctxs c).pend) : L.wt k + thw L.toWts s t + L.out s.data ≤ L.inn s.data := by
  obtain ⟨N, h1, h2⟩ := q
  have h2 := h2.le
  have hc : c < N := by
    by_contra h
    rw [(h1 c (by omega)).2] at hk; simp at hk
  have h3 := nsum_le (f := fun c => lsum L.wt (s.ctxs c).pend) hc
  have h4 := lsum_mem (w := L.wt) hk
  by_cases ht : t < N
  · have := nsum_le (f := thw L.toWts s) ht; omega
  · rw [thw_nil (h1 t (by omega)).1]; omega

end
end Core
namespace Sync
open Core
section
variable {α φ δ χ : Type} {A : App α φ δ χ} {ad : δ} {i0 : φ} {s s' : SSt α φ δ}

/-! ## Reading the accounts -/

theorem hi_le {T : Tab} {p : Nat} (f : Fr α φ) (v : Val) : f.lo (wts δ φ T p) ≤ f.hi (wts δ φ T p) v := by
  cases f with
  | client f => simp [Frame.lo, Frame.hi, wts]
  | core f =>
    cases f <;> first
      | exact Nat.le_refl _
      | (rename_i k; cases k <;> cases T <;> simp [Frame.lo, Frame.hi, CF.tw, CF.lw, wts, ktw, Tab.tl, Tab.tr]; done)
      | (rename_i k _; cases k <;> cases T <;> simp [Frame.lo, Frame.hi, CF.tw, CF.lw, wts, ktw, Tab.tl, Tab.tr])

theorem hx_le {T : Tab} {p : Nat} (f : Fr α φ) : f.lo (wts δ φ T p) ≤ f.hx (wts δ φ T p) := by
  cases f with
  | client f => exact Nat.le_refl _
  | core f => exact hi_le (δ := δ) (T := T) (p := p) (.core f) .unit

/-- Frames of a stack hold what they hold. -/
theorem losum_thw (T : Tab) (p : Nat) (s : SSt α φ δ) (t : Nat) : losum (wts δ φ T p) (s.stk t) ≤ thw (wts δ φ T p) s t := by
  unfold thw stw
  split
  · cases s.stk t with
    | nil => exact Nat.le_refl _
    | cons f r => have := hi_le (δ := δ) (T := T) (p := p) f (s.thr t).rv; simp only [losum_cons, topHi]; omega
  · cases s.stk t with
    | nil => exact Nat.le_refl _
    | cons f r => have := hx_le (δ := δ) (T := T) (p := p) f; simp only [losum_cons, topHx]; omega

theorem mem_losum {T : Tab} {p : Nat} {l : List (Fr α φ)} {f : SFrame α φ} (h : .client f ∈ l) : fw T p f ≤ losum (wts δ φ T p) l := by
  have := lsum_mem (w := Frame.lo (wts δ φ T p)) h
  exact this

theorem mem_thw {T : Tab} {p : Nat} {t : Nat} {f : SFrame α φ} (h : .client f ∈ s.stk t) : fw T p f ≤ thw (wts δ φ T p) s t :=
  Nat.le_trans (mem_losum h) (losum_thw T p s t)

/-- Application-owned packaged tasks. -/
def ExtI (d : SData α) : Prop := ∀ t p, (.called t p ∈ d.slog ∨ .freed t p ∈ d.slog) → p < d.nst ∧ (d.st p).owner = .ext

theorem ext_ok (h : SR A ad i0 s) : ExtI s.data.sd := by
  refine Reach.induct (fun s : SSt α φ δ => SR A ad i0 s ∧ ExtI s.data.sd) ?_ ?_ h |>.2
  · exact ⟨⟨[], rfl⟩, by intro t p h; simp [Core.init] at h⟩
  · intro s l s' hr q hs
    refine ⟨hr.step hs, ?_⟩
    have hx := step_ext hs
    have old : ∀ t p, (.called t p ∈ s.data.sd.slog ∨ .freed t p ∈ s.data.sd.slog) → p < s'.data.sd.nst ∧ (s'.data.sd.st p).owner = .ext := by
      intro t p h
      have := q.2 t p h
      exact ⟨Nat.lt_of_lt_of_le this.1 hx.nst, (hx.owner this.1).trans this.2⟩
    rcases step_sd hs with h | ⟨t, ch, f, rest, a, -, he, hst, hS⟩
    · rw [h]; exact q.2
    · generalize s'.data.sd = d' at hS old ⊢
      intro u p h
      have key : (.called u p ∈ s.data.sd.slog ∨ .freed u p ∈ s.data.sd.slog) ∨ (∃ b, f = .rtIn p b ∨ f = .dtIn p b) := by
        cases hS
        case swIn => unfold SData.addWaiter at h; split at h <;> exact .inl (by simpa using h)
        case wfAdd => unfold SData.addWaiter at h; split at h <;> exact .inl (by simpa using h)
        case swBefore w i k => cases hw : w.lk <;> rw [hw] at h <;> exact .inl h
        case wfBefore w i k _ _ => cases hw : w.lk <;> rw [hw] at h <;> exact .inl h
        case rtIn p' b h1 h2 =>
          simp only [SData.ev, List.mem_cons, SEv.called.injEq, reduceCtorEq, false_or] at h
          rcases h with (h | h) | h
          · exact .inr ⟨b, .inl (by rw [h.2])⟩
          · exact .inl (.inl h)
          · exact .inl (.inr h)
        case dtIn p' b h1 h2 =>
          simp only [SData.ev, List.mem_cons, SEv.freed.injEq, reduceCtorEq, false_or] at h
          rcases h with h | (h | h)
          · exact .inl (.inl h)
          · exact .inr ⟨b, .inr (by rw [h.2])⟩
          · exact .inl (.inr h)
        all_goals first
          | exact .inl h
          | exact .inl (by simpa [SData.ev, SData.setSt, SData.setLk, SData.mkState, SData.remWaiter] using h)
      rcases key with h' | ⟨b, rfl | rfl⟩
      · exact old u p h'
      · cases hS
        · exact ⟨‹_›, ‹_›⟩
        · exact old u p h
      · cases hS
        · exact ⟨‹_›, ‹_›⟩
        · exact old u p h

def Pkg (d : SData α) (p : Nat) : Prop := p < d.nst ∧ (d.st p).owner = .pkg

theorem evI_zero {T : Tab} {p : Nat} {l : List SEv} (h : ∀ t, .called t p ∉ l ∧ .freed t p ∉ l) : lsum (evI T p) l = 0 := by
  induction l with
  | nil => rfl
  | cons e l ih =>
    have ih := ih fun t => ⟨fun h' => (h t).1 (by simp [h']), fun h' => (h t).2 (by simp [h'])⟩
    rw [lsum_cons, ih]
    cases e <;> first
      | rfl
      | skip
    · rename_i t q
      have : q ≠ p := by rintro rfl; exact (h t).1 (by simp)
      cases T <;> simp [evI, b1, this]
    · rename_i t q
      have : q ≠ p := by rintro rfl; exact (h t).2 (by simp)
      cases T <;> simp [evI, b1, this]

theorem inn_pkg (hr : SR A ad i0 s) {T : Tab} {p : Nat} (hp : Pkg s.data.sd p) : (wts δ φ T p).inn s.data = 1 := by
  have : lsum (evI T p) s.data.sd.slog = 0 := by
    refine evI_zero fun t => ⟨fun h => ?_, fun h => ?_⟩
    · have := (ext_ok hr t p (.inl h)).2; rw [hp.2] at this; cases this
    · have := (ext_ok hr t p (.inr h)).2; rw [hp.2] at this; cases this
  simp only [wts, this, ownI]
  rw [if_pos (show _ ∧ _ from hp)]

theorem inn_LA {T : Tab} (hT : T = .L ∨ T = .A) (p : Nat) (d : Data α δ) : (wts δ φ T p).inn d ≤ 1 := by
  have : lsum (evI T p) d.sd.slog = 0 := by
    generalize d.sd.slog = l
    induction l with
    | nil => rfl
    | cons e l ih => rw [lsum_cons, ih]; rcases hT with rfl | rfl <;> cases e <;> rfl
  simp only [wts, this, ownI]
  split <;> omega

theorem acc_le (hr : SR A ad i0 s) (T : Tab) (p t : Nat) : thw (wts δ φ T p) s t + (wts δ φ T p).out s.data ≤ (wts δ φ T p).inn s.data :=
  (lin_ok hr T p).le t

/-! ## Events of continuations -/

/-- Number of launches of `p`. -/
def nlau (p : Nat) (l : List SEv) : Nat := lsum (evO .L p) l
/-- Number of attachments of `p`. -/
def natt (p : Nat) (l : List SEv) : Nat := lsum (evO .A p) l

def lau (p : Nat) (l : List SEv) : Prop := ∃ t id as own, .launched t p id as own ∈ l
def att (q p : Nat) (l : List SEv) : Prop := ∃ t, .attached t q p ∈ l
def satIn (q : Nat) (l : List SEv) : Prop := ∃ t r, .sat t q r ∈ l

theorem lau_pos {p : Nat} {l : List SEv} (h : lau p l) : 1 ≤ nlau p l := by
  obtain ⟨t, id, as, own, h⟩ := h
  have := lsum_mem (w := evO .L p) h
  simpa [nlau, evO, b1] using this

theorem att_pos {q p : Nat} {l : List SEv} (h : att q p l) : 1 ≤ natt p l := by
  obtain ⟨t, h⟩ := h
  have := lsum_mem (w := evO .A p) h
  simpa [natt, evO, b1] using this

theorem lau_of_pos {p : Nat} {l : List SEv} (h : 1 ≤ nlau p l) : lau p l := by
  induction l with
  | nil => exact absurd h (by simp [nlau])
  | cons e l ih =>
    by_cases h' : 1 ≤ nlau p l
    · obtain ⟨t, id, as, own, h⟩ := ih h'; exact ⟨t, id, as, own, by simp [h]⟩
    · simp only [nlau, lsum_cons] at h h'
      cases e <;> simp only [evO] at h <;> first | omega | skip
      rename_i t q id as own
      by_cases hq : q = p
      · subst hq; exact ⟨t, id, as, own, by simp⟩
      · simp [b1, hq] at h; omega

theorem nlau_append (p : Nat) (l l' : List SEv) : nlau p (l ++ l') = nlau p l + nlau p l' := by simp [nlau]
theorem natt_append (p : Nat) (l l' : List SEv) : natt p (l ++ l') = natt p l + natt p l' := by simp [natt]

theorem att_uniq {q q' p : Nat} {l : List SEv} (h : natt p l ≤ 1) (h1 : att q p l) (h2 : att q' p l) : q = q' := by
  obtain ⟨t, h1⟩ := h1
  obtain ⟨t', h2⟩ := h2
  by_contra hne
  obtain ⟨a, b, rfl⟩ := List.append_of_mem h1
  have h3 : SEv.attached t' q' p ∈ a ∨ SEv.attached t' q' p ∈ b := by
    simp at h2
    rcases h2 with h2 | h2 | h2
    · exact .inl h2
    · exact absurd h2.2.symm hne
    · exact .inr h2
  have h4 : natt p (SEv.attached t q p :: b) = 1 + natt p b := by simp [natt, evO, b1]
  rw [natt_append, h4] at h
  rcases h3 with h3 | h3
  · have := att_pos ⟨t', h3⟩; omega
  · have := att_pos ⟨t', h3⟩; omega

instance (q : Nat) (l : List SEv) : Decidable (satIn q l) :=
  decidable_of_iff (l.any fun e => match e with | .sat _ q' _ => decide (q' = q) | _ => false) (by
    simp only [List.any_eq_true, satIn]
    constructor
    · rintro ⟨e, he, h⟩
      cases e <;> simp at h
      subst h
      exact ⟨_, _, he⟩
    · rintro ⟨t, r, h⟩
      exact ⟨_, h, by simp⟩)

/-- What was attached to `q` before `q` became ready, in order. -/
def attB (q : Nat) : List SEv → List Nat
  | [] => []
  | .attached _ q' p :: l => if q' = q ∧ ¬ satIn q l then attB q l ++ [p] else attB q l
  | _ :: l => attB q l

theorem attB_att {q p : Nat} : ∀ {l : List SEv}, p ∈ attB q l → att q p l
  | [], h => by simp [attB] at h
  | e :: l, h => by
    have ih := @attB_att q p l
    have mono : att q p l → att q p (e :: l) := fun ⟨t, h⟩ => ⟨t, by simp [h]⟩
    cases e <;> simp only [attB] at h <;> first | exact mono (ih h) | skip
    rename_i t q' p'
    split at h
    · rename_i hc
      simp only [List.mem_append, List.mem_singleton] at h
      rcases h with h | rfl
      · exact mono (ih h)
      · exact ⟨t, by simp [hc.1]⟩
    · exact mono (ih h)

theorem attB_count {q p : Nat} : ∀ {l : List SEv}, (attB q l).count p ≤ natt p l
  | [] => by simp [attB]
  | e :: l => by
    have ih := @attB_count q p l
    cases e <;> simp only [attB, natt, lsum_cons, evO] <;> simp only [natt] at ih <;> first | omega | skip
    rename_i t q' p'
    by_cases hp : p' = p
    · subst hp
      split
      · simp [b1]; omega
      · omega
    · split
      · simp [List.count_singleton, hp]; omega
      · omega

theorem attB_sat {q : Nat} {l : List SEv} (h : satIn q l) : ∀ es, attB q (es ++ l) = attB q l
  | [] => rfl
  | e :: es => by
    have ih := attB_sat h es
    have hs : satIn q (es ++ l) := by obtain ⟨t, r, h⟩ := h; exact ⟨t, r, by simp [h]⟩
    cases e <;> simp only [List.cons_append, attB] <;> first | exact ih | skip
    rw [if_neg (by simp [hs]), ih]

theorem attB_prefix {q : Nat} {l : List SEv} : ∀ es, attB q l <+: attB q (es ++ l)
  | [] => List.prefix_refl _
  | e :: es => by
    have ih := @attB_prefix q l es
    cases e <;> simp only [List.cons_append, attB] <;> first | exact ih | skip
    split
    · exact ih.trans (List.prefix_append _ _)
    · exact ih

/-! ## Who still has to launch what -/

theorem ready_sat (hr : SR A ad i0 s) (q : Nat) : s.data.sd.ready q = true ↔ satIn q s.data.sd.slog := by
  have h := (top2_ok hr).1.out q
  have hm : satIn q s.data.sd.slog ↔ sats s.data.sd.slog q ≠ [] := by
    constructor
    · rintro ⟨t, r, h⟩ h'
      have : r ∈ sats s.data.sd.slog q := List.mem_filterMap.2 ⟨_, h, by simp [SEv.satOf]⟩
      rw [h'] at this; simp at this
    · intro h'
      obtain ⟨r, hr⟩ := List.exists_mem_of_ne_nil _ h'
      obtain ⟨e, he, h⟩ := List.mem_filterMap.1 hr
      cases e <;> simp [SEv.satOf] at h
      obtain ⟨rfl, rfl⟩ := h
      exact ⟨_, _, he⟩
  rw [hm]
  simp only [outc] at h
  cases hst : (s.data.sd.st q).status <;> simp only [hst] at h
  · simp [SData.ready, hst, h]
  · obtain ⟨w, h1, -⟩ := h; simp [SData.ready, hst, h1]
  · obtain ⟨w, h1, -⟩ := h; simp [SData.ready, hst, h1]

def quietE : SEv → Prop
  | .launched _ _ _ _ _ => False
  | .attached _ _ _ => False
  | .sat _ _ _ => False
  | _ => True

def cspec : SFrame α φ → Prop
  | .srSet _ _ => True
  | .scIn _ _ => True
  | .laIn _ _ => True
  | _ => False

theorem cq_st {d d' : SData α} {p : Nat} {x : FSt α} (h : d'.st = set d.st p x) (h1 : x.status = (d.st p).status) (h2 : x.cbs = (d.st p).cbs) (q : Nat) :
    d'.ready q = d.ready q ∧ (d'.st q).cbs = (d.st q).cbs := by
  simp only [SData.ready, h, set]
  split
  · rename_i h; subst h; simp [h1, h2]
  · exact ⟨rfl, rfl⟩

theorem cquiet {run destroy : α → φ} {v : View} {d d' : SData α} {rv : Val} {f : SFrame α φ} {a : Act (STask α) (SFrame α φ)}
    (hi : T1I d) (hS : SS run destroy v d rv f d' a) (hf : ¬ cspec f) :
    (∀ q, d'.ready q = d.ready q ∧ (d'.st q).cbs = (d.st q).cbs) ∧ ∃ es, d'.slog = es ++ d.slog ∧ ∀ e ∈ es, quietE e := by
  have hfr := hi.fresh d.nst (Nat.le_refl _)
  cases hS <;> first
    | exact absurd trivial hf
    | exact ⟨fun _ => ⟨rfl, rfl⟩, [], rfl, by simp⟩
    | exact ⟨fun _ => ⟨rfl, rfl⟩, [_], rfl, by simp [quietE]⟩
    | exact ⟨cq_st rfl rfl rfl, [], rfl, by simp⟩
    | exact ⟨cq_st rfl rfl rfl, [_], rfl, by simp [quietE]⟩
    | exact ⟨cq_st rfl (by rw [hfr]) (by rw [hfr]), [_], rfl, by simp [quietE]⟩
    | (unfold SData.addWaiter; split <;> first | exact ⟨fun _ => ⟨rfl, rfl⟩, [], rfl, by simp⟩ | exact ⟨fun _ => ⟨rfl, rfl⟩, [_], rfl, by simp [quietE]⟩)
    | (rename_i w _ _; cases w.lk <;> exact ⟨fun _ => ⟨rfl, rfl⟩, [], rfl, by simp⟩)
    | (rename_i w _ _ _ _; cases w.lk <;> exact ⟨fun _ => ⟨rfl, rfl⟩, [], rfl, by simp⟩)

theorem attB_quiet {q : Nat} {l : List SEv} : ∀ es, (∀ e ∈ es, quietE e) → attB q (es ++ l) = attB q l
  | [], _ => rfl
  | e :: es, h => by
    have ih := attB_quiet (q := q) (l := l) es fun e he => h e (by simp [he])
    have he := h e (by simp)
    cases e <;> first | exact ih | exact False.elim he

/-- Of what was attached to the ready `q` in time, exactly the continuations `l` may still have to be launched. -/
def Rem (q : Nat) (l : List (Kont α)) (log : List SEv) : Prop :=
  satIn q log ∧ ∃ pre, attB q log = pre ++ l.map Kont.p ∧ ∀ x ∈ pre, lau x log

theorem lau_mono {p : Nat} {l : List SEv} (es : List SEv) (h : lau p l) : lau p (es ++ l) := by
  obtain ⟨t, i, as, o, h⟩ := h; exact ⟨t, i, as, o, by simp [h]⟩
theorem satIn_mono {p : Nat} {l : List SEv} (es : List SEv) (h : satIn p l) : satIn p (es ++ l) := by
  obtain ⟨t, r, h⟩ := h; exact ⟨t, r, by simp [h]⟩
theorem att_mono {q p : Nat} {l : List SEv} (es : List SEv) (h : att q p l) : att q p (es ++ l) := by
  obtain ⟨t, h⟩ := h; exact ⟨t, by simp [h]⟩

theorem Rem.mono {q : Nat} {l : List (Kont α)} {log : List SEv} (es : List SEv) (h : Rem q l log) : Rem q l (es ++ log) := by
  obtain ⟨h1, pre, h2, h3⟩ := h
  exact ⟨satIn_mono es h1, pre, by rw [attB_sat h1, h2], fun x hx => lau_mono es (h3 x hx)⟩

theorem Rem.next {q : Nat} {c : Kont α} {l : List (Kont α)} {log : List SEv} (h : Rem q (c :: l) log) (hl : lau c.p log) : Rem q l log := by
  obtain ⟨h1, pre, h2, h3⟩ := h
  refine ⟨h1, pre ++ [c.p], by simp [h2], ?_⟩
  intro x hx
  simp only [List.mem_append, List.mem_singleton] at hx
  rcases hx with hx | rfl
  · exact h3 x hx
  · exact hl

def C3N (log : List SEv) : NK α → Prop
  | .fut q l => Rem q l log
  | _ => True

def C3F (log : List SEv) : SFrame α φ → Prop
  | .naIn K => C3N log K
  | .nLoop K _ => C3N log K
  | .nCall K _ _ _ => C3N log K
  | .nAfter K _ _ _ => C3N log K
  | .srUnl q l => Rem q l log
  | .srLoop q _ l => Rem q l log
  | .srDtor q _ => Rem (α := α) q [] log
  | .laIn K c => match K with
    | .sr q _ l => Rem q (c :: l) log
    | .sc => ∃ q, att q c.p log ∧ satIn q log ∧ c.p ∉ attB q log
    | .as => True
  | .laRet K c => match K with
    | .sr q _ l => Rem q l log ∧ lau c.p log
    | _ => lau c.p log
  | .laInl K c => match K with
    | .sr q _ l => Rem q l log ∧ lau c.p log
    | _ => lau c.p log
  | _ => True

theorem C3N.mono {log : List SEv} (es : List SEv) {K : NK α} (h : C3N log K) : C3N (es ++ log) K := by
  cases K
  case fut => exact Rem.mono es h
  all_goals trivial

theorem C3F.mono {log : List SEv} (es : List SEv) {f : SFrame α φ} (h : C3F log f) : C3F (es ++ log) f := by
  cases f
  case laIn K c =>
    cases K
    case sr => exact Rem.mono es h
    case sc =>
      obtain ⟨q, h1, h2, h3⟩ := h
      exact ⟨q, att_mono es h1, satIn_mono es h2, by rw [attB_sat h2]; exact h3⟩
    case as => trivial
  case laRet K c =>
    cases K
    case sr => exact ⟨Rem.mono es h.1, lau_mono es h.2⟩
    all_goals exact lau_mono es h
  case laInl K c =>
    cases K
    case sr => exact ⟨Rem.mono es h.1, lau_mono es h.2⟩
    all_goals exact lau_mono es h
  all_goals first
    | trivial
    | exact C3N.mono es h
    | exact Rem.mono es h

/-- What a launch of `p` finds in the log. -/
def OrdOK (p : Nat) (l : List SEv) : Prop :=
  (∀ q, att q p l → satIn q l) ∧ ∀ q a b, attB q l = a ++ p :: b → ∀ x ∈ a, lau x l

structure C3I (d : SData α) : Prop where
  cbs : ∀ q, d.ready q = false → attB q d.slog = (d.st q).cbs.map Kont.p
  none : ∀ q, d.ready q = true → (d.st q).cbs = []
  pk : ∀ q p, att q p d.slog → Pkg d p ∧ q < d.nst
  hist : ∀ es t p i as o es', d.slog = es ++ .launched t p i as o :: es' → OrdOK p es'
  hatt : ∀ es t q p es', d.slog = es ++ .attached t q p :: es' → ¬ lau p es'

theorem split_app {β : Type} {es l a b : List β} {x : β} (h : es ++ l = a ++ x :: b) : (∃ a', l = a' ++ x :: b) ∨ ∃ a1 a2, es = a1 ++ x :: a2 ∧ b = a2 ++ l := by
  rcases List.append_eq_append_iff.1 h with ⟨c, h1, h2⟩ | ⟨c, h1, h2⟩
  · exact .inl ⟨c, h2⟩
  · cases c with
    | nil => exact .inl ⟨[], by simpa using h2.symm⟩
    | cons y c =>
      simp only [List.cons_append, List.cons.injEq] at h2
      obtain ⟨rfl, h2⟩ := h2
      exact .inr ⟨a, c, h1, h2⟩

theorem C3I.quiet {d d' : SData α} (hx : Ext d d') (hi : C3I d) (h1 : ∀ q, d'.ready q = d.ready q ∧ (d'.st q).cbs = (d.st q).cbs)
    {es : List SEv} (h2 : d'.slog = es ++ d.slog) (h3 : ∀ e ∈ es, quietE e) : C3I d' := by
  refine ⟨?_, ?_, ?_, ?_, ?_⟩
  · intro q; rw [(h1 q).1, (h1 q).2, h2, attB_quiet es h3]; exact hi.cbs q
  · intro q; rw [(h1 q).1, (h1 q).2]; exact hi.none q
  · rintro q p ⟨t, h⟩
    rw [h2, List.mem_append] at h
    rcases h with h | h
    · exact (h3 _ h).elim
    · obtain ⟨⟨h4, h5⟩, h6⟩ := hi.pk q p ⟨t, h⟩
      exact ⟨⟨lt_mono hx h4, (hx.owner h4).trans h5⟩, lt_mono hx h6⟩
  · intro a t p i as o b h
    rw [h2] at h
    rcases split_app h with ⟨a', h⟩ | ⟨a1, a2, h, -⟩
    · exact hi.hist _ _ _ _ _ _ _ h
    · exact (h3 (.launched t p i as o) (by rw [h]; simp)).elim
  · intro a t q p b h
    rw [h2] at h
    rcases split_app h with ⟨a', h⟩ | ⟨a1, a2, h, -⟩
    · exact hi.hatt _ _ _ _ _ h
    · exact (h3 (.attached t q p) (by rw [h]; simp)).elim

theorem out_L (p : Nat) (d : Data α δ) : nlau p d.sd.slog ≤ (wts δ φ .L p).out d := by
  simp only [wts, nlau, Tab.l1]; omega
theorem out_A (p : Nat) (d : Data α δ) : natt p d.sd.slog ≤ (wts δ φ .A p).out d := by
  simp only [wts, natt]; omega

theorem natt_le (hr : SR A ad i0 s) (p : Nat) : natt p s.data.sd.slog ≤ 1 := by
  have h1 := acc_le hr .A p 0
  have h2 := out_A (φ := φ) p s.data
  have h3 := inn_LA (φ := φ) (T := .A) (.inr rfl) p s.data
  omega

theorem nlau_le (hr : SR A ad i0 s) (p : Nat) : nlau p s.data.sd.slog ≤ 1 := by
  have h1 := acc_le hr .L p 0
  have h2 := out_L (φ := φ) p s.data
  have h3 := inn_LA (φ := φ) (T := .L) (.inl rfl) p s.data
  omega

theorem not_lau (hr : SR A ad i0 s) {t p : Nat} {f : SFrame α φ} (hf : .client f ∈ s.stk t) (h : 1 ≤ fw .L p f) : ¬ lau p s.data.sd.slog := by
  intro h'
  have h1 := acc_le hr .L p t
  have h2 := out_L (φ := φ) p s.data
  have h3 := inn_LA (φ := φ) (T := .L) (.inl rfl) p s.data
  have h4 := mem_thw (δ := δ) (T := .L) (p := p) hf
  have := lau_pos h'
  omega

theorem not_att (hr : SR A ad i0 s) {t p : Nat} {f : SFrame α φ} (hf : .client f ∈ s.stk t) (h : 1 ≤ fw .A p f) (q : Nat) : ¬ att q p s.data.sd.slog := by
  intro h'
  have h1 := acc_le hr .A p t
  have h2 := out_A (φ := φ) p s.data
  have h3 := inn_LA (φ := φ) (T := .A) (.inr rfl) p s.data
  have h4 := mem_thw (δ := δ) (T := .A) (p := p) hf
  have := att_pos h'
  omega

theorem split_uniq {β : Type} [DecidableEq β] {a b a' b' : List β} {x : β} (h : a ++ x :: b = a' ++ x :: b') (hc : (a ++ x :: b).count x ≤ 1) : a = a' ∧ b = b' := by
  rcases List.append_eq_append_iff.1 h with ⟨c, h1, h2⟩ | ⟨c, h1, h2⟩
  · cases c with
    | nil => simp_all
    | cons y c =>
      simp only [List.cons_append, List.cons.injEq] at h2
      obtain ⟨rfl, rfl⟩ := h2
      simp at hc; omega
  · cases c with
    | nil => simp_all
    | cons y c =>
      simp only [List.cons_append, List.cons.injEq] at h2
      obtain ⟨rfl, rfl⟩ := h2
      subst h1
      simp at hc; omega

/-- A launch finds everything in order. -/
theorem laIn_ord (hr : SR A ad i0 s) (hi : C3I s.data.sd) {t : Nat} {K : LK α} {c : Kont α} {rest : List (Fr α φ)}
    (hst : s.stk t = .client (.laIn K c) :: rest) (hf : C3F (α := α) (φ := φ) s.data.sd.slog (.laIn K c)) : OrdOK c.p s.data.sd.slog := by
  have hm : (Frame.client (.laIn K c) : Fr α φ) ∈ s.stk t := by rw [hst]; simp
  have hn := natt_le hr c.p
  cases K
  case sr q dn l =>
    obtain ⟨h1, pre, h2, h3⟩ := hf
    have ha : att q c.p s.data.sd.slog := attB_att (by rw [h2]; simp)
    refine ⟨fun q' h' => by rw [← att_uniq hn ha h']; exact h1, ?_⟩
    intro q' a b hab x hx
    obtain rfl : q = q' := att_uniq hn ha (attB_att (by rw [hab]; simp))
    rw [h2] at hab
    simp only [List.map_cons] at hab h2
    obtain ⟨rfl, -⟩ := split_uniq hab (by rw [← h2]; exact Nat.le_trans attB_count hn)
    exact h3 x hx
  case sc =>
    obtain ⟨q, h1, h2, h3⟩ := hf
    refine ⟨fun q' h' => by rw [← att_uniq hn h1 h']; exact h2, ?_⟩
    intro q' a b hab x hx
    have hq : c.p ∈ attB q' s.data.sd.slog := by rw [hab]; simp
    obtain rfl : q = q' := att_uniq hn h1 (attB_att hq)
    exact absurd hq h3
  case as =>
    have hna := not_att hr hm (p := c.p) (by simp [fw, b1, LK.own])
    refine ⟨fun q' h' => absurd h' (hna _), ?_⟩
    intro q' a b hab x hx
    exact absurd (attB_att (by rw [hab]; simp)) (hna q')

theorem C3I.launch {d : SData α} (hi : C3I d) {t p i : Nat} {as : Bool} {o : Nat} (ho : OrdOK p d.slog) : C3I (d.ev (.launched t p i as o)) := by
  refine ⟨hi.cbs, hi.none, ?_, ?_, ?_⟩
  · rintro q p' ⟨t', h⟩
    simp only [SData.ev, List.mem_cons, reduceCtorEq, false_or] at h
    exact hi.pk q p' ⟨t', h⟩
  · intro a t' p' i' as' o' b h
    rcases split_app (es := [_]) h with ⟨a', h⟩ | ⟨a1, a2, h, h'⟩
    · exact hi.hist _ _ _ _ _ _ _ h
    · cases a1 with
      | nil =>
        simp only [List.nil_append, List.cons.injEq, SEv.launched.injEq] at h
        obtain ⟨⟨-, rfl, -⟩, rfl⟩ := h
        subst h'; exact ho
      | cons x a1 => simp at h
  · intro a t' q' p' b h
    rcases split_app (es := [_]) h with ⟨a', h⟩ | ⟨a1, a2, h, h'⟩
    · exact hi.hatt _ _ _ _ _ h
    · cases a1 <;> simp at h

theorem C3I.attach {d d' : SData α} (hx : Ext d d') (hi : C3I d) {t q p : Nat} (h1 : d'.slog = .attached t q p :: d.slog) (hr : ∀ x, d'.ready x = d.ready x)
    (h2 : d.ready q = true → d'.st = d.st) (h3 : d.ready q = false → (d'.st q).cbs.map Kont.p = (d.st q).cbs.map Kont.p ++ [p])
    (h4 : ∀ x, x ≠ q → (d'.st x).cbs = (d.st x).cbs) (hs : ∀ x, d.ready x = true ↔ satIn x d.slog) (hp : Pkg d p) (hq : q < d.nst) (hl : ¬ lau p d.slog) : C3I d' := by
  refine ⟨?_, ?_, ?_, ?_, ?_⟩
  · intro x hx'
    rw [hr] at hx'
    rw [h1]
    simp only [attB]
    by_cases hxq : x = q
    · subst hxq
      rw [if_pos ⟨rfl, by rw [← hs, hx']; simp⟩, h3 hx', hi.cbs x hx']
    · rw [if_neg (by rintro ⟨rfl, -⟩; exact hxq rfl), h4 x hxq, hi.cbs x hx']
  · intro x hx'
    rw [hr] at hx'
    by_cases hxq : x = q
    · subst hxq; rw [h2 hx']; exact hi.none x hx'
    · rw [h4 x hxq]; exact hi.none x hx'
  · rintro x p' ⟨t', h⟩
    rw [h1, List.mem_cons] at h
    rcases h with h | h
    · simp only [SEv.attached.injEq] at h
      obtain ⟨-, rfl, rfl⟩ := h
      exact ⟨⟨lt_mono hx hp.1, (hx.owner hp.1).trans hp.2⟩, lt_mono hx hq⟩
    · obtain ⟨⟨h4, h5⟩, h6⟩ := hi.pk x p' ⟨t', h⟩
      exact ⟨⟨lt_mono hx h4, (hx.owner h4).trans h5⟩, lt_mono hx h6⟩
  · intro a t' p' i' as' o' b h
    rw [h1] at h
    rcases split_app (es := [_]) h with ⟨a', h⟩ | ⟨a1, a2, h, h'⟩
    · exact hi.hist _ _ _ _ _ _ _ h
    · cases a1 <;> simp at h
  · intro a t' q' p' b h
    rw [h1] at h
    rcases split_app (es := [_]) h with ⟨a', h⟩ | ⟨a1, a2, h, h'⟩
    · exact hi.hatt _ _ _ _ _ h
    · cases a1 with
      | nil =>
        simp only [List.nil_append, List.cons.injEq, SEv.attached.injEq] at h
        obtain ⟨⟨-, -, rfl⟩, rfl⟩ := h
        subst h'; exact hl
      | cons x a1 => simp at h

theorem C3I.sat {d d' : SData α} (hx : Ext d d') (hi : C3I d) {t p : Nat} {r : Res} (h1 : d'.slog = .sat t p r :: d.slog) (h2 : d'.ready p = true)
    (h3 : (d'.st p).cbs = []) (h4 : ∀ x, x ≠ p → d'.st x = d.st x) : C3I d' := by
  refine ⟨?_, ?_, ?_, ?_, ?_⟩
  · intro x hx'
    by_cases hp : x = p
    · subst hp; rw [h2] at hx'; cases hx'
    · rw [h1]; simp only [attB]
      simp only [SData.ready, h4 x hp] at hx' ⊢
      exact hi.cbs x hx'
  · intro x hx'
    by_cases hp : x = p
    · subst hp; exact h3
    · simp only [SData.ready, h4 x hp] at hx' ⊢
      exact hi.none x hx'
  · rintro x p' ⟨t', h⟩
    rw [h1] at h
    simp only [List.mem_cons, reduceCtorEq, false_or] at h
    obtain ⟨⟨h4, h5⟩, h6⟩ := hi.pk x p' ⟨t', h⟩
    exact ⟨⟨lt_mono hx h4, (hx.owner h4).trans h5⟩, lt_mono hx h6⟩
  · intro a t' p' i' as' o' b h
    rw [h1] at h
    rcases split_app (es := [_]) h with ⟨a', h⟩ | ⟨a1, a2, h, h'⟩
    · exact hi.hist _ _ _ _ _ _ _ h
    · cases a1 <;> simp at h
  · intro a t' q' p' b h
    rw [h1] at h
    rcases split_app (es := [_]) h with ⟨a', h⟩ | ⟨a1, a2, h, h'⟩
    · exact hi.hatt _ _ _ _ _ h
    · cases a1 <;> simp at h

theorem C3_laNext {log : List SEv} {K : LK α} {c : Kont α} {b : Bool} {t : Nat}
    (h : match K with | .sr q _ l => Rem q l log ∧ lau c.p log | _ => lau c.p log) :
    ActOK (φ := SFrame α φ) (fun _ f => C3F log f) (fun _ => True) t (laNext K c b) := by
  cases K
  case sr p dn l => exact h.1
  case sc => cases b <;> trivial
  case as => cases b <;> trivial

def ty3 (A : App α φ δ χ) (ad : δ) (i0 : φ) : STy A (SR A ad i0) where
  I := C3I
  PF d _ f := C3F d.slog f
  PT _ _ := True
  app := trivial
  entry {d t a} := by cases a <;> trivial
  tapp := trivial
  step := by
    intro s t f rest d' a hr he hst hi hf hS
    have hx := hS.ext
    have h1 := ty1_I hr
    have hF := ty1_top hr hst
    have hm : (Frame.client f : Fr α φ) ∈ s.stk t := by rw [hst]; simp
    have h2 := (top2_ok hr).2 t f rest hst he
    refine ⟨?_, ?_, fun _ _ => trivial, ?_⟩
    · by_cases hc : cspec f
      · cases hS <;> first | exact hc.elim | skip
        case srVal p w => exact hi.sat hx rfl (by simp [SData.ready, SData.setSt, SData.ev]) (by simp [SData.setSt, SData.ev]) fun x hx => by simp [SData.setSt, SData.ev, set_ne _ _ hx]
        case srExn p w => exact hi.sat hx rfl (by simp [SData.ready, SData.setSt, SData.ev]) (by simp [SData.setSt, SData.ev]) fun x hx => by simp [SData.setSt, SData.ev, set_ne _ _ hx]
        case scNow p c hl h =>
          exact hi.attach hx rfl (fun _ => rfl) (fun _ => rfl) (fun h' => by rw [h] at h'; cases h') (fun _ _ => rfl) (ready_sat hr) hF.2 hF.1
            (not_lau hr hm (by simp [fw, b1]))
        case scLater p c hl h =>
          refine hi.attach hx rfl (fun q => ?_) (fun h' => by rw [h] at h'; cases h') (fun _ => by simp [SData.setSt, SData.ev])
            (fun x hx => by simp [SData.setSt, SData.ev, set_ne _ _ hx]) (ready_sat hr) hF.2 hF.1 (not_lau hr hm (by simp [fw, b1]))
          simp only [SData.ready, SData.setSt, SData.ev, set]
          split
          · rename_i h; subst h; rfl
          · rfl
        case laQueue K c id hid h => exact hi.launch (laIn_ord hr hi hst hf)
        case laInl K c id hid h _ => exact hi.launch (laIn_ord hr hi hst hf)
      · obtain ⟨q1, es, q2, q3⟩ := cquiet h1 hS hc
        exact hi.quiet hx q1 q2 q3
    · intro u g hg
      obtain ⟨es, h⟩ := hx.log
      rw [h]; exact hg.mono es
    · have hf' : C3F d'.slog f := by obtain ⟨es, h⟩ := hx.log; rw [h]; exact hf.mono es
      cases hS
      case laRet K c => exact C3_laNext hf
      case laEnd K c => exact C3_laNext hf
      case srVal p w =>
        have hn : s.data.sd.ready p = false := by simp [SData.ready, (h2.1 _ _ rfl).1]
        refine ⟨⟨t, .val w, by simp [SData.ev, St.view]⟩, [], ?_, by simp⟩
        simpa [SData.ev, SData.setSt, attB] using hi.cbs p hn
      case srExn p w =>
        have hn : s.data.sd.ready p = false := by simp [SData.ready, (h2.1 _ _ rfl).1]
        refine ⟨⟨t, .exn w, by simp [SData.ev, St.view]⟩, [], ?_, by simp⟩
        simpa [SData.ev, SData.setSt, attB] using hi.cbs p hn
      case scNow p c hl h =>
        refine ⟨p, ⟨t, by simp [SData.ev, St.view]⟩, satIn_mono [_] ((ready_sat hr p).1 h), ?_⟩
        intro hin
        have : attB p (s.data.sd.ev (.attached (s.view t).tid p c.p)).slog = attB p s.data.sd.slog := attB_sat ((ready_sat hr p).1 h) [_]
        rw [this] at hin
        exact not_att hr hm (p := c.p) (by simp [fw, b1]) p (attB_att hin)
      case laQueue K c id hid h =>
        refine ⟨?_, trivial⟩
        have hl : lau c.p (s.data.sd.ev (.launched (s.view t).tid c.p id c.async (s.view t).id)).slog := ⟨_, _, _, _, by simp [SData.ev]; exact .inl ⟨rfl, rfl, rfl, rfl⟩⟩
        cases K
        case sr q dn l => exact ⟨Rem.next hf' hl, hl⟩
        all_goals exact hl
      case laInl K c id hid h _ =>
        refine ⟨trivial, ?_⟩
        have hl : lau c.p (s.data.sd.ev (.launched (s.view t).tid c.p id c.async (s.view t).id)).slog := ⟨_, _, _, _, by simp [SData.ev]; exact .inl ⟨rfl, rfl, rfl, rfl⟩⟩
        cases K
        case sr q dn l => exact ⟨Rem.next hf' hl, hl⟩
        all_goals exact hl
      all_goals first
        | trivial
        | exact hf'
        | exact ⟨trivial, trivial⟩
        | exact ⟨trivial, hf'⟩
        | exact ⟨hf', trivial⟩
  done := trivial
  task h _ := ⟨trivial, trivial⟩
  throw := by
    intro s t f rest e f' _ _ _ hf hn ht
    cases f <;> first
      | (cases ht; done)
      | exact absurd trivial hn
      | (have ht := Option.some.inj ht; subst ht; trivial)
      | skip
    simp only [sThrow, Option.map_eq_some_iff] at ht
    obtain ⟨x, -, rfl⟩ := ht
    trivial

theorem ty3_ok (h : SR A ad i0 s) : (ty3 A ad i0).ty.Ok s :=
  (ty3 A ad i0).sound ⟨fun q _ => rfl, fun _ _ => rfl, by rintro q p ⟨t, h⟩; simp at h, by intro es t p i as o es' h; simp at h, by intro es t q p es' h; simp at h⟩ h

theorem ty3_I (h : SR A ad i0 s) : C3I s.data.sd := (ty3_ok h).data

theorem ty3_F (h : SR A ad i0 s) {t : Nat} {g : SFrame α φ} (hg : .client g ∈ s.stk t) : C3F s.data.sd.slog g := (ty3_ok h).fr t _ hg

end
end Sync
end Itc
