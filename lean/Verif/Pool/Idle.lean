import Verif.Pool.Once
import Verif.Pool.Work
import Verif.Core.TopOnly

/-!
# Thread pool: notifications of workers (proof infrastructure, no claims)
-/
namespace Itc
namespace Pool
open Core Sync
section
variable {α φ δ χ : Type}

def eMade (i : Nat) : PEv α → Nat
  | .made _ i' => b1 (i' = i)
  | _ => 0

/-- Every pool is made once. -/
def aMade (i : Nat) : PL α φ δ where
  o := 1
  u := 0
  ou := rfl
  w _ := 0
  g
    | .newW i' _ _ => b1 (i' = i)
    | .newReg i' _ _ _ _ => b1 (i' = i)
    | .newId i' _ _ _ _ => b1 (i' = i)
    | _ => 0
  out d := lsum (eMade i) d.plog
  inn d := b1 (i < d.nimp)
  w_usr _ := rfl
  g_z f h := by cases f <;> first | rfl | exact h.elim
  g_entry a := by cases a <;> rfl
  out_u _ _ := rfl
  inn_u _ _ := rfl
  start _ := Nat.zero_le _

local macro "ps" L:ident : tactic => `(tactic| (
  simp only [AW.sa, AW.sapi, AW.api, PL.aw, $L:ident, PData.upd, PData.ev, PData.close, addH, insJob, chgJob, eraseJob, lsum_cons, lsum_append, eMade,
    Nat.add_zero, Nat.zero_add, Nat.mul_zero, Nat.le_refl, Nat.one_mul, Nat.zero_mul, Nat.mul_one]))

theorem aMade_ok (U : PApp α φ δ χ) (u0 : δ) (f0 : φ) (i : Nat) : (aMade i : PL α φ δ).Ok U u0 f0 where
  runI _ _ := Nat.zero_le _
  runC _ := Nat.zero_le _
  desI _ _ := Nat.zero_le _
  desC _ := Nat.zero_le _
  throw {f e f'} h := by
    cases f <;> simp only [pthrow, Option.some.injEq, reduceCtorEq] at h <;> subst h <;> first | exact Nat.zero_le _ | exact Nat.le_refl _
  step {s t f rest ad' sa} hr he hst hf hP := by
    have dr := sum_drop (α := α) (eMade i) (fun _ => 0) (s.view t).tid
    cases hP <;> (try subst_vars)
    case wtEnd i k dn => cases dn <;> simp only [waitEv] <;> ps aMade
    case wtGo i k dn p l => cases dn <;> simp only [waitEv] <;> ps aMade
    case caIn i K =>
      have := dr i (by intros; rfl) (by intros; rfl) (s.data.ad.imp i).jobs
      ps aMade
      have h0 : ∀ l : List (Call α), lsum (fun _ => 0) l = 0 := by intro l; simp [lsum]
      (try rw [h0] at this)
      omega
    all_goals ps aMade
    all_goals try simp only [b1]
    all_goals grind
  ck {s t x rest ad' id c} hr he hst hP := by
    cases hP
    all_goals ps aMade

theorem new_unmade {U : PApp α φ δ χ} {u0 : δ} {f0 : φ} {s : PSt α φ δ} (hr : PR U u0 f0 s) {t i h l n : Nat} {ws : List (Nat × Nat)}
    (hm : .client (.app (.newId i h l n ws)) ∈ s.stk t) : ¬ Made s.data.ad i := by
  rintro ⟨t', hm'⟩
  have h1 := (aMade_ok U u0 f0 i).mem hr hm
  have h2 : eMade i (PEv.made t' i : PEv α) ≤ lsum (eMade i) s.data.ad.plog := by
    obtain ⟨l1, l2, h⟩ := List.append_of_mem hm'
    rw [h, lsum_append, lsum_cons]; omega
  simp only [aMade, eMade, b1, if_true] at h1 h2
  have : (if i < s.data.ad.nimp then 1 else 0) ≤ 1 := by split <;> omega
  omega

/-! ## Queues and notifications -/

def tokOf (i : Nat) (w : Wk) (x : Tok) : Bool := x.i = i ∧ x.w = w.id ∧ x.L = w.lvl

/-- As long as a worker does not exit, there are at least as many notifications for it as handles that it may serve. -/
structure Toks (ad : PData α δ) : Prop where
  nod : ad.opn.Nodup
  lt : ∀ x ∈ ad.opn, x.n < ad.ntok
  made : ∀ {i h}, h ∈ (ad.imp i).q → Made ad i
  cnt : ∀ {i w}, w ∈ (ad.imp i).wk → (elig w.lvl (ad.imp i).q).length ≤ ad.opn.countP (tokOf i w) ∨ ∃ t x, .exits t x ∈ ad.plog ∧ x.w = w.id

theorem mkToks_nod (i lvl : Nat) : ∀ (wk : List Wk) (n : Nat), (mkToks i lvl n wk).Nodup
  | [], _ => by simp [mkToks]
  | w :: wk, n => by
    simp only [mkToks]
    split
    · refine List.nodup_cons.2 ⟨fun h => ?_, mkToks_nod i lvl wk _⟩
      have := (mkToks_n h).1
      simp only at this
      omega
    · exact mkToks_nod i lvl wk _

theorem mkToks_cnt {i lvl : Nat} {w : Wk} (hl : w.lvl ≤ lvl) : ∀ {wk : List Wk} {n : Nat}, w ∈ wk → 1 ≤ (mkToks i lvl n wk).countP (tokOf i w)
  | [], _, h => by cases h
  | w' :: wk, n, h => by
    simp only [mkToks]
    rcases List.mem_cons.1 h with rfl | h
    · rw [if_pos hl, List.countP_cons]
      simp [tokOf]
    · split
      · have := mkToks_cnt (i := i) hl (n := n + 1) h
        rw [List.countP_cons]; omega
      · exact mkToks_cnt hl h

variable {ad ad' : PData α δ}

theorem Toks.keep (h : Toks ad) (ho : ad'.opn = ad.opn) (hn : ad'.ntok = ad.ntok) (hl : ∀ e ∈ ad.plog, e ∈ ad'.plog)
    (hq : ∀ i, (ad'.imp i).q = (ad.imp i).q ∨ (ad'.imp i).q = []) (hw : ∀ i, ∀ w ∈ (ad'.imp i).wk, w ∈ (ad.imp i).wk ∨ (ad'.imp i).q = []) : Toks ad' where
  nod := ho ▸ h.nod
  lt := by rw [ho, hn]; exact h.lt
  made {i x} hx := by
    rcases hq i with h1 | h1 <;> rw [h1] at hx
    · obtain ⟨t, ht⟩ := h.made hx; exact ⟨t, hl _ ht⟩
    · cases hx
  cnt {i w} hm := by
    rcases hq i with h1 | h1
    · rcases hw i w hm with h2 | h2
      · rcases h.cnt h2 with h3 | ⟨t, x, h3, h4⟩
        · rw [h1, ho]; exact .inl h3
        · exact .inr ⟨t, x, hl _ h3, h4⟩
      · rw [h2]; exact .inl (by simp [elig])
    · rw [h1]; exact .inl (by simp [elig])

theorem Toks.addH (h : Toks ad) (i : Nat) (x : Hd) (hm : Made ad i) : Toks (addH ad i x) where
  nod := by
    refine List.nodup_append.2 ⟨h.nod, mkToks_nod _ _ _ _, ?_⟩
    rintro a ha b hb rfl
    have := h.lt a ha
    have := (mkToks_n hb).1
    omega
  lt y hy := by
    show y.n < ad.ntok + _
    rcases List.mem_append.1 hy with hy | hy
    · have := h.lt y hy; omega
    · exact (mkToks_n hy).2
  made {j y} hy := by
    by_cases hj : j = i
    · subst hj; exact hm
    · simp only [Pool.addH, PData.upd, set_ne _ _ hj] at hy; exact h.made hy
  cnt {j w} hw := by
    have e1 : (Pool.addH ad i x).opn = ad.opn ++ mkToks i x.g.lvl ad.ntok (ad.imp i).wk := rfl
    by_cases hj : j = i
    · subst hj
      have e2 : ((Pool.addH ad j x).imp j).q = (ad.imp j).q ++ [x] := by simp [Pool.addH, PData.upd]
      have e3 : ((Pool.addH ad j x).imp j).wk = (ad.imp j).wk := by simp [Pool.addH, PData.upd]
      rw [e3] at hw
      rcases h.cnt hw with h1 | h1
      · refine .inl ?_
        rw [e1, e2, List.countP_append]
        simp only [elig, List.filter_append, List.length_append] at h1 ⊢
        by_cases hl : w.lvl ≤ x.g.lvl
        · have := mkToks_cnt (i := j) hl (n := ad.ntok) hw
          have : (List.filter (fun h => decide (w.lvl ≤ h.g.lvl)) [x]).length ≤ 1 := List.length_filter_le ..
          omega
        · have : List.filter (fun h => decide (w.lvl ≤ h.g.lvl)) [x] = [] := by simp; omega
          rw [this]; simp; omega
      · exact .inr h1
    · have e2 : (Pool.addH ad i x).imp j = ad.imp j := by simp [Pool.addH, PData.upd, set_ne _ _ hj]
      rw [e2] at hw ⊢
      rcases h.cnt hw with h1 | h1
      · refine .inl ?_
        rw [e1, List.countP_append]; omega
      · exact .inr h1

theorem countP_erase_ge {x : Tok} {p : Tok → Bool} (l : List Tok) : l.countP p ≤ (l.erase x).countP p + (if p x then 1 else 0) := by
  by_cases h : x ∈ l
  · have := (List.perm_cons_erase h).countP_eq p
    rw [this, List.countP_cons]; omega
  · rw [List.erase_of_not_mem h]; omega

/-- The locked region of check_jobs. -/
theorem Toks.ck {t id : Nat} {x : Tok} {c : Option (Call α)} (h : Toks ad) (hP : PK t ad x.i x.L ad' id c) : Toks (ad'.close x) := by
  have hsub : ∀ y ∈ ad.opn.erase x, y ∈ ad.opn := fun y hy => List.mem_of_mem_erase hy
  have pop : ∀ {k : Nat} {hd : Hd} {jobs} {e : PEv α} (_ : isTop x.L (ad.imp x.i).q k = true) (_ : (ad.imp x.i).q[k]? = some hd),
      Toks (((ad.upd x.i { ad.imp x.i with q := (ad.imp x.i).q.eraseIdx k, jobs := jobs }).ev e).close x) := by
    intro k hd jobs e ht hk
    have hlt : k < (ad.imp x.i).q.length := by
      rcases Nat.lt_or_ge k (ad.imp x.i).q.length with h1 | h1
      · exact h1
      · rw [List.getElem?_eq_none h1] at hk; cases hk
    have hL : x.L ≤ hd.g.lvl := by
      simp only [isTop, hk, Bool.and_eq_true, decide_eq_true_eq] at ht
      exact ht.1
    refine ⟨h.nod.erase x, fun y hy => h.lt y (hsub y hy), ?_, ?_⟩
    · intro j y hy
      by_cases hj : j = x.i
      · subst hj
        have hy : y ∈ (ad.imp x.i).q.eraseIdx k := by simpa [PData.close, PData.ev, PData.upd] using hy
        obtain ⟨t', ht'⟩ := h.made (List.mem_of_mem_eraseIdx hy)
        exact ⟨t', List.mem_cons_of_mem _ ht'⟩
      · simp only [PData.close, PData.ev, PData.upd, set_ne _ _ hj] at hy
        obtain ⟨t', ht'⟩ := h.made hy
        exact ⟨t', List.mem_cons_of_mem _ ht'⟩
    · intro j w hw
      by_cases hj : j = x.i
      · subst hj
        have hw : w ∈ (ad.imp x.i).wk := by simpa [PData.close, PData.ev, PData.upd] using hw
        rcases h.cnt hw with h1 | ⟨t', y, h1, h2⟩
        · refine .inl ?_
          have e1 : ((((ad.upd x.i { ad.imp x.i with q := (ad.imp x.i).q.eraseIdx k, jobs := jobs }).ev e).close x).imp x.i).q = (ad.imp x.i).q.eraseIdx k := by
            simp [PData.close, PData.ev, PData.upd]
          rw [e1]
          show _ ≤ (ad.opn.erase x).countP _
          have h2 := countP_erase_ge (x := x) (p := tokOf x.i w) ad.opn
          have h3 : ((ad.imp x.i).q.eraseIdx k).countP (fun h => decide (w.lvl ≤ h.g.lvl)) + (if w.lvl ≤ hd.g.lvl then 1 else 0) =
              (ad.imp x.i).q.countP (fun h => decide (w.lvl ≤ h.g.lvl)) := by
            have h4 : (ad.imp x.i).q[k] = hd := by rw [List.getElem?_eq_getElem hlt] at hk; exact Option.some.inj hk
            have h5 := (List.getElem_cons_eraseIdx_perm hlt).countP_eq (fun h : Hd => decide (w.lvl ≤ h.g.lvl))
            rw [← h5, List.countP_cons, h4]; simp
          simp only [elig, ← List.countP_eq_length_filter] at h1 ⊢
          by_cases hx : tokOf x.i w x = true
          · have : w.lvl ≤ hd.g.lvl := by simp [tokOf] at hx; omega
            rw [if_pos hx] at h2; rw [if_pos this] at h3; omega
          · rw [if_neg hx] at h2; omega
        · exact .inr ⟨t', y, List.mem_cons_of_mem _ h1, h2⟩
      · have e2 : (((ad.upd x.i { ad.imp x.i with q := (ad.imp x.i).q.eraseIdx k, jobs := jobs }).ev e).close x).imp j = ad.imp j := by
          simp [PData.close, PData.ev, PData.upd, set_ne _ _ hj]
        rw [e2] at hw ⊢
        rcases h.cnt hw with h1 | ⟨t', y, h1, h2⟩
        · refine .inl ?_
          show _ ≤ (ad.opn.erase x).countP _
          have h2 := countP_erase_ge (x := x) (p := tokOf j w) ad.opn
          have : ¬ tokOf j w x = true := by simp [tokOf]; intro h; exact absurd h.symm hj
          rw [if_neg this] at h2; omega
        · exact .inr ⟨t', y, List.mem_cons_of_mem _ h1, h2⟩
  cases hP with
  | idle he =>
    refine ⟨h.nod.erase x, fun y hy => h.lt y (hsub y hy), ?_, ?_⟩
    · intro j y hy
      obtain ⟨t', ht'⟩ := h.made hy
      exact ⟨t', List.mem_cons_of_mem _ ht'⟩
    · intro j w hw
      rcases h.cnt hw with h1 | ⟨t', y, h1, h2⟩
      · refine .inl ?_
        show _ ≤ (ad.opn.erase x).countP _
        have h2 := countP_erase_ge (x := x) (p := tokOf j w) ad.opn
        by_cases hx : tokOf j w x = true
        · have h3 : x.i = j ∧ x.w = w.id ∧ x.L = w.lvl := by simpa [tokOf] using hx
          obtain ⟨rfl, -, h4⟩ := h3
          rw [h4] at he
          show (elig w.lvl (ad.imp x.i).q).length ≤ _
          rw [he]; exact Nat.zero_le _
        · rw [if_neg hx] at h2
          show (elig w.lvl (ad.imp j).q).length ≤ _
          omega
      · exact .inr ⟨t', y, List.mem_cons_of_mem _ h1, h2⟩
  | skip k hd id ht hk hn => exact pop ht hk
  | took k hd j c ht hk hj hL hc => exact pop ht hk

/-- check_jobs of a thread that is to exit. -/
theorem Toks.exit {t : Nat} {x : Tok} (h : Toks ad) : Toks ((ad.close x).ev (.exits t x)) where
  nod := h.nod.erase x
  lt y hy := h.lt y (List.mem_of_mem_erase hy)
  made {i y} hy := by
    obtain ⟨t', ht'⟩ := h.made hy
    exact ⟨t', List.mem_cons_of_mem _ ht'⟩
  cnt {j w} hw := by
    rcases h.cnt hw with h1 | ⟨t', y, h1, h2⟩
    · by_cases hx : tokOf j w x = true
      · have h3 : x.i = j ∧ x.w = w.id ∧ x.L = w.lvl := by simpa [tokOf] using hx
        exact .inr ⟨t, x, List.mem_cons_self, h3.2.1⟩
      · refine .inl ?_
        have h2 := countP_erase_ge (x := x) (p := tokOf j w) ad.opn
        rw [if_neg hx] at h2
        show (elig w.lvl (ad.imp j).q).length ≤ (ad.opn.erase x).countP _
        omega
    · exact .inr ⟨t', y, List.mem_cons_of_mem _ h1, h2⟩

variable {U : PApp α φ δ χ} {u0 : δ} {f0 : φ} {s : PSt α φ δ}

theorem toks (hr : PR U u0 f0 s) : Toks s.data.ad := by
  refine data_ind (fun ad => Toks ad) ⟨by simp, by simp, by simp, by simp⟩ ?_ hr
  intro s t ch f rest ad' a hr q he hst hA
  have ty := tyF hr (t := t) (f := f) (by rw [hst]; simp)
  have hle := ty_step hr he hst hA
  cases pool_pc hA with
  | usr g ch u wa hU => exact q.keep rfl rfl (fun _ h => h) (fun _ => .inl rfl) (fun _ _ h => .inl h)
  | ck x d' id c hP => exact q.ck hP
  | ps f d' a hf hb hP =>
    have nq : ∀ {j}, ¬ Made s.data.ad j → (s.data.ad.imp j).q = [] := fun h => List.eq_nil_iff_forall_not_mem.2 fun _ hx => h (q.made hx)
    cases hP <;> (try subst_vars)
    case ajIn i h g c =>
      refine Toks.addH (ad := insJob (s.view t).tid s.data.ad i g c) (q.keep rfl rfl (fun _ h => List.mem_cons_of_mem _ h) (fun j => ?_) (fun j => ?_)) _ _ ?_
      · simp only [insJob, PData.ev, PData.upd, set_imp]; split <;> simp_all
      · simp only [insJob, PData.ev, PData.upd, set_imp]; split <;> simp_all
      · obtain ⟨t', ht'⟩ := ty.1; exact ⟨t', List.mem_cons_of_mem _ ht'⟩
    case cpBody i id g j c hj hc hg =>
      refine Toks.addH (ad := chgJob (s.view t).tid s.data.ad i id g) (q.keep rfl rfl (fun _ h => List.mem_cons_of_mem _ h) (fun j => ?_) (fun j => ?_)) _ _ ?_
      · simp only [chgJob, PData.ev, PData.upd, set_imp]; split <;> simp_all
      · simp only [chgJob, PData.ev, PData.upd, set_imp]; split <;> simp_all
      · obtain ⟨t', ht'⟩ := ty; exact ⟨t', List.mem_cons_of_mem _ ht'⟩
    case newId i h l n ws id hv =>
      have := nq (new_unmade hr (t := t) (by rw [hst]; exact List.mem_cons_self))
      refine q.keep rfl rfl hle.log (fun j => ?_) (fun j => ?_)
      · simp only [PData.ev, PData.upd, set_imp]; split <;> simp_all
      · simp only [PData.ev, PData.upd, set_imp]; split <;> simp_all
    case ckExit x hx => exact q.exit
    case wtEnd i k dn =>
      refine q.keep ?_ ?_ hle.log (fun j => .inl ?_) (fun j w hw => .inl ?_) <;> cases dn <;> first | rfl | exact hw
    case wtGo i k dn p l =>
      refine q.keep ?_ ?_ hle.log (fun j => .inl ?_) (fun j w hw => .inl ?_) <;> cases dn <;> first | rfl | exact hw
    all_goals first
      | exact q.keep rfl rfl hle.log (fun _ => .inl rfl) (fun _ _ h => .inl h)
      | (refine q.keep rfl rfl hle.log (fun j => ?_) (fun j => ?_) <;> simp only [eraseJob, PData.ev, PData.upd, set_imp] <;> split <;> simp_all)

/-! ## The dispatches of notify_workers -/

/-- check_jobs inside notify_workers: the worker waits for the mutex that its own thread holds. -/
theorem inl_ok (hr : PR U u0 f0 s) : ∀ t pre k i l x K rest, s.stk t = pre ++ .core (.dispRan k) :: .client (.app (.nw i l (some x) K)) :: rest →
    (s.thr t).exc = none ∧ (pre = [] ∨ pre = [.client (.app (.ckIn x))] ∨ pre = [.client (.lkIn (gd i)), .client (.app (.ckBody x))]) := by
  refine Reach.induct (fun s : PSt α φ δ => ∀ t pre k i l x K rest, s.stk t = pre ++ .core (.dispRan k) :: .client (.app (.nw i l (some x) K)) :: rest →
    (s.thr t).exc = none ∧ (pre = [] ∨ pre = [.client (.app (.ckIn x))] ∨ pre = [.client (.lkIn (gd i)), .client (.app (.ckBody x))])) ?_ ?_ hr
  · intro t pre k i l x K rest hst
    exfalso
    have hm : .core (.dispRan k) ∈ (Core.init { sd := {}, ad := { u := u0 } } (.app (.usr f0)) : PSt α φ δ).stk t := by rw [hst]; simp
    by_cases h1 : t = 0
    · subst h1; simp [Core.init, St.stk] at hm
    · simp [Core.init, St.stk, upd_ne _ _ h1] at hm
  intro s l s' hr q hs
  cases l with
  | tick n => rw [step_tick _ s s' n hs]; exact q
  | th u ch =>
    intro t pre k i l x K rest hst
    by_cases hu : t = u
    · subst hu
      have same : s'.stk t = s.stk t → (s'.thr t).exc = none → (s'.thr t).exc = none ∧ (pre = [] ∨ pre = [.client (.app (.ckIn x))] ∨
          pre = [.client (.lkIn (gd i)), .client (.app (.ckBody x))]) := fun h1 h2 => ⟨h2, (q t pre k i l x K rest (h1 ▸ hst)).2⟩
      -- the frame was there before
      have old : ∀ {top r0 new}, s.stk t = top :: r0 → s'.stk t = new ++ r0 → (∀ k', .core (.dispRan k') ∉ new) → ∃ p, pre = new ++ p ∧
          r0 = p ++ .core (.dispRan k) :: .client (.app (.nw i l (some x) K)) :: rest ∧ (s.thr t).exc = none ∧
          (top = .client (.app (.ckIn x)) ∧ p = [] ∨ top = .client (.lkIn (gd i)) ∧ p = [.client (.app (.ckBody x))]) := by
        intro top r0 new h1 h2 hn
        rw [hst] at h2
        rcases AF.split_new h2.symm with hm | ⟨p, rfl, hp⟩
        · exact absurd hm (hn _)
        · obtain ⟨he, h3⟩ := q t (top :: p) k i l x K rest (by rw [h1, hp]; rfl)
          refine ⟨p, rfl, hp, he, ?_⟩
          rcases h3 with h3 | h3 | h3
          · cases h3
          · cases h3; exact .inl ⟨rfl, rfl⟩
          · cases h3; exact .inr ⟨rfl, rfl⟩
      cases step_cl hs with
      | halt e hexc hst' => rw [(q t pre k i l x K rest (hst' ▸ hst)).1] at hexc; cases hexc
      | fin hold hst' => rw [hst'] at hst; simp at hst
      | task e f k' r0 hexc hold hf hst' =>
        obtain ⟨p, -, -, he, -⟩ := old (new := [_, _]) hold hst' (by simp)
        rw [he] at hexc; cases hexc
      | cpop e f r0 hexc hold hf hst' =>
        obtain ⟨p, -, -, he, -⟩ := old (new := []) hold hst' (by simp)
        rw [he] at hexc; cases hexc
      | «catch» e g g' r0 hexc hold hg hst' =>
        obtain ⟨p, -, -, he, -⟩ := old (new := [_]) hold hst' (by simp)
        rw [he] at hexc; cases hexc
      | pop e g r0 hexc hold hg hst' =>
        obtain ⟨p, -, -, he, -⟩ := old (new := []) hold hst' (by simp)
        rw [he] at hexc; cases hexc
      | core f r0 hexc hold hcs hdata hcore =>
        cases hcs with
        | «to» new h hst' hexc' hrv =>
          by_cases hn : ∀ k', .core (.dispRan k') ∉ new
          · obtain ⟨p, -, -, -, h4⟩ := old hold hst' hn
            rcases h4 with ⟨h4, -⟩ | ⟨h4, -⟩ <;> cases h4
          · refine ⟨hexc', ?_⟩
            cases h <;> try (exfalso; apply hn; simp; done)
            rename_i id k0 hid
            rw [hst] at hst'
            cases pre with
            | nil => simp at hst'
            | cons y pre =>
              simp only [List.cons_append, List.cons.injEq, List.nil_append] at hst'
              obtain ⟨rfl, hst'⟩ := hst'
              cases pre with
              | nil =>
                simp only [List.nil_append, List.cons.injEq, Frame.core.injEq, CF.dispRan.injEq] at hst'
                obtain ⟨rfl, rfl⟩ := hst'
                rcases (wc U u0 f0).ok hr t [_] _ _ _ hold rfl with ⟨s0, n, r0, e0, hf⟩ | ⟨h, -⟩
                · obtain ⟨p, g, h1, h2⟩ := (disPh t x.w (.app (.check x)) _).frag r0 e0 ⟨rfl, rfl⟩ hf
                  rw [hold] at h1
                  have h3 : p = [] := by
                    have := congrArg List.length h1
                    simp at this
                    exact this
                  subst h3
                  simp only [List.nil_append, List.cons.injEq, Frame.core.injEq, and_true] at h1
                  subst h1
                  obtain ⟨rfl, rfl⟩ := h2
                  exact .inr (.inl rfl)
                · cases h
              | cons z pre =>
                simp only [List.cons_append, List.cons.injEq] at hst'
                obtain ⟨h1, h2⟩ := q t (_ :: pre) k i l x K rest (by rw [hold, ← hst'.2]; rfl)
                rcases h2 with h2 | h2 | h2 <;> cases h2
        | pop v h hst' =>
          obtain ⟨p, -, -, -, h4⟩ := old (new := []) hold hst' (by simp)
          rcases h4 with ⟨h4, -⟩ | ⟨h4, -⟩ <;> cases h4
        | rethrow e h hst' =>
          obtain ⟨p, -, -, -, h4⟩ := old (new := []) hold hst' (by simp)
          rcases h4 with ⟨h4, -⟩ | ⟨h4, -⟩ <;> cases h4
        | ub h hst' he => exact same hst' he
      | cl f r0 d' a hexc hold hstep hdata hact =>
        have hne : ∀ new, s'.stk t = new ++ r0 → (∀ k', .core (.dispRan k') ∉ new) → (s'.thr t).exc = none → (s'.thr t).exc = none ∧
            (pre = [] ∨ pre = [.client (.app (.ckIn x))] ∨ pre = [.client (.lkIn (gd i)), .client (.app (.ckBody x))]) := by
          intro new h1 h2 h3
          obtain ⟨p, rfl, hp, -, h4⟩ := old hold h1 h2
          refine ⟨h3, ?_⟩
          rcases h4 with ⟨h4, rfl⟩ | ⟨h4, rfl⟩
          · cases h4
            obtain ⟨sa, ch', hA, -, hact'⟩ := pool_at hr hold hexc hs
            generalize s'.data.ad = ad2 at hA
            cases pool_pc hA with
            | ps f d' a hf hb hP =>
              cases hP with
              | bad =>
                have h5 : s'.stk t = s.stk t := hact'.1
                rw [h1, hold] at h5
                exact .inr (.inl (by simpa using List.append_cancel_right (bs := r0) (as := new) (cs := [_]) h5))
              | ckExit hx =>
                have h5 : s'.stk t = r0 := hact'.1
                rw [h1] at h5
                exact .inl (by simpa using h5)
              | ckIn hx =>
                have h5 : s'.stk t = .client (.lkIn (gd x.i)) :: .client (.app (.ckBody x)) :: r0 := hact'.1
                rw [h1] at h5
                have hi : x.i = i := ((tyF hr (t := t) (f := .nw i l (some x) K) (by rw [hold, hp]; simp)).2.1 x (.inr rfl)).1
                rw [hi] at h5
                exact .inr (.inr (by simpa using List.append_cancel_right (bs := r0) (as := new) (cs := [_, _]) h5))
          · cases h4
            cases client_cs hstep with
            | sync f sd a hS =>
              cases hS with
              | lkIn n hl =>
                have h5 : s'.stk t = r0 := hact.1
                exfalso
                rw [hp] at h5
                have hi : x.i = i := ((tyF hr (t := t) (f := .nw i l (some x) K) (by rw [hold, hp]; simp)).2.1 x (.inr rfl)).1
                exact sec_excl (hr.step hs) (t := t) (u := t) (i := i) (b := true) (f := .ckBody x) (g := .nw i l (some x) K) h5 hact.2.1
                  (by simp [secF, hi]) rfl (by rw [h5]; simp) (fun _ => by simp)
        cases a with
        | goto y => exact hne [_] hact.1 (by simp) hact.2.1
        | push y z => exact hne [_, _] hact.1 (by simp) hact.2.1
        | call b y => exact hne [_, _] hact.1 (by intro k'; cases b <;> simp [Api.entry]) hact.2.1
        | ret v => exact hne [] hact.1 (by simp) hact.2.1
        | throw e =>
          obtain ⟨p, rfl, hp, -, h4⟩ := old (new := []) hold hact.1 (by simp)
          exfalso
          rcases h4 with ⟨h4, rfl⟩ | ⟨h4, rfl⟩
          · cases h4
            obtain ⟨sa, ch', hA, -, hact'⟩ := pool_at hr hold hexc hs
            generalize s'.data.ad = ad2 at hA
            cases pool_pc hA with
            | ps f d' a hf hb hP =>
              cases hP with
              | bad => have h1 := hact.2; rw [hact'.2.2] at h1; cases h1
              | ckExit hx => have h1 := hact.2; rw [hact'.2.1] at h1; cases h1
              | ckIn hx => have h1 := hact.2; rw [hact'.2.1] at h1; cases h1
          · cases h4
            cases client_cs hstep with
            | sync f sd a hS => cases hS
        | terminate => exact same hact.1 hact.2.2
    · rcases step_stk_other' (FreeOK.reach hr) hu hs with h1 | ⟨-, f, h1⟩
      · have h2 := q t pre k i l x K rest (h1 ▸ hst)
        refine ⟨?_, h2.2⟩
        rw [(step_thr_other (FreeOK.reach hr) hu (by rw [← h1, hst]; simp) hs).2.2.1]
        exact h2.1
      · rw [h1] at hst
        have := congrArg List.length hst
        simp at this
        omega

/-- Frames that are never the continuation of a call. -/
def topF : SFrame (PTask α) (PFrame α φ) → Prop
  | .lkIn _ => True
  | .app (.ckIn _) => True
  | .app (.nw _ _ none _) => True
  | _ => False

theorem topF_ok (hr : PR U u0 f0 s) {t : Nat} {pre : List (Fr (PTask α) (PFrame α φ))} {k : SFrame (PTask α) (PFrame α φ)}
    {rest : List (Fr (PTask α) (PFrame α φ))} (hst : s.stk t = pre ++ .client k :: rest) (hk : topF k) : pre = [] ∧ (s.thr t).exc = none := by
  refine top_only (G := topF) ?_ ?_ hr hst hk
  · intro v d f rv ch d' a k hs hk
    have hc : a.cont = some k := by rcases hk with ⟨g, rfl⟩ | ⟨b, rfl⟩ <;> rfl
    cases client_cs hs with
    | app g ad sa hA =>
      have hng : ∀ g, liftAct sa ≠ .goto g := by
        intro g h; rw [h] at hk; rcases hk with ⟨g, h⟩ | ⟨b, h⟩ <;> cases h
      cases k with
      | app k =>
        rcases pool_cont hA hc with ⟨g, rfl⟩ | ⟨a, rfl⟩ | ⟨x, j, c, -, -, rfl⟩ | hP
        · exact id
        · cases a <;> exact id
        · exact id
        · clear hA
          cases hP <;> simp only [liftAct, Act.cont, Option.some.injEq, reduceCtorEq, SFrame.app.injEq] at hc <;> subst hc <;> first
            | exact id
            | exact absurd rfl (hng _)
      | _ => cases sa <;> simp [liftAct, Act.cont] at hc
    | sync f sd a hS =>
      intro h
      cases k <;> first | exact h | skip
      · exact absurd hc (hS.cont_app _)
      · clear hs hk h
        cases hS
        case laRet K c => cases K <;> simp only [laNext] at hc <;> (try split at hc) <;> simp [Act.cont] at hc
        case laEnd K c => cases K <;> simp only [laNext] at hc <;> (try split at hc) <;> simp [Act.cont] at hc
        all_goals simp [Act.cont] at hc
  · intro g e g' h
    cases g <;> simp only [client, sThrow, Option.map_eq_some_iff, Option.some.injEq, reduceCtorEq] at h <;> (try split at h) <;> first
      | (cases h; done)
      | (cases h; exact id)
      | skip
    obtain ⟨y, hy, rfl⟩ := h
    rcases pool_throw hy with ⟨g, g', rfl, rfl⟩ | ⟨i, l, c, K, rfl, rfl⟩ | ⟨i, o, K, rfl, rfl⟩ | ⟨i, o, l, K, rfl, rfl⟩ <;> exact id

def isCkB : PFrame α φ → Prop
  | .ckBody _ => True
  | _ => False

theorem ckB_entry : Entry (poolApp U) (fun g => ¬ isCkB g) where
  run a := by cases a <;> exact id
  destroy a := by cases a <;> exact id
  code hs := code_z (F := fun g => ¬ isCkB g) (fun _ => id) id hs

/-- The locked region of check_jobs only waits for the mutex. -/
theorem ckB_ok (hr : PR U u0 f0 s) : ∀ t pre x rest, s.stk t = pre ++ .client (.app (.ckBody x)) :: rest →
    (s.thr t).exc = none ∧ (pre = [] ∨ pre = [.client (.lkIn (gd x.i))]) := by
  refine Reach.induct (fun s : PSt α φ δ => ∀ t pre x rest, s.stk t = pre ++ .client (.app (.ckBody x)) :: rest →
    (s.thr t).exc = none ∧ (pre = [] ∨ pre = [.client (.lkIn (gd x.i))])) ?_ ?_ hr
  · intro t pre x rest hst
    exfalso
    have hm : .client (.app (.ckBody x)) ∈ (Core.init { sd := {}, ad := { u := u0 } } (.app (.usr f0)) : PSt α φ δ).stk t := by rw [hst]; simp
    by_cases h1 : t = 0
    · subst h1; simp [Core.init, St.stk] at hm
    · simp [Core.init, St.stk, upd_ne _ _ h1] at hm
  intro s l s' hr q hs
  cases l with
  | tick n => rw [step_tick _ s s' n hs]; exact q
  | th u ch =>
    intro t pre x rest hst
    have B := ckB_entry (U := U)
    by_cases hu : t = u
    · subst hu
      have nT : ∀ g, appT (α := PTask α) (fun g => ¬ isCkB g) g → (.client g : Fr (PTask α) (PFrame α φ)) ≠ .client (.app (.ckBody x)) := by
        rintro g hg e
        cases e
        exact hg trivial
      have old : ∀ new, (∀ y ∈ new, y ≠ (.client (.app (.ckBody x)) : Fr (PTask α) (PFrame α φ))) → ∀ top r0, s.stk t = top :: r0 → s'.stk t = new ++ r0 →
          (s.thr t).exc = none ∧ top = .client (.lkIn (gd x.i)) ∧ pre = new := by
        intro new hnew top r0 h1 h2
        rw [hst] at h2
        rcases AF.split_new h2.symm with hm | ⟨p, rfl, hp⟩
        · exact absurd rfl (hnew _ hm)
        · obtain ⟨h3, h4⟩ := q t (top :: p) x rest (by rw [h1, hp]; rfl)
          rcases h4 with h4 | h4 <;> cases h4
          exact ⟨h3, rfl, by simp⟩
      have ncl : ∀ {e}, (s.thr t).exc = some e → (s.thr t).exc = none → False := by intro e h1 h2; rw [h1] at h2; cases h2
      cases mvT hr (B.codes hr) (by intro k; cases k <;> first | trivial | exact B.run _) (by intro k; cases k <;> first | trivial | exact B.destroy _) hs with
      | sync f r0 a he hst0 hS hact had =>
        obtain ⟨n1, n2, n3⟩ := B.ss_new hS
        have lk : ∀ {new}, (.client f : Fr (PTask α) (PFrame α φ)) = .client (.lkIn (gd x.i)) → s'.stk t = new ++ r0 → new = [] ∧ (s'.thr t).exc = none := by
          intro new h h1
          cases h
          generalize s'.data.sd = d' at hS
          cases hS with
          | lkIn n hl =>
            have h2 : s'.stk t = r0 := hact.1
            rw [h1] at h2
            exact ⟨by simpa using h2, hact.2.1⟩
        cases a with
        | goto y =>
          obtain ⟨-, h1, rfl⟩ := old [.client y] (by simpa using nT _ (n1 _ rfl)) _ _ hst0 hact.1
          cases (lk (new := [_]) h1 hact.1).1
        | push y z =>
          obtain ⟨-, h1, rfl⟩ := old [.client y, .client z] (by
            have h1 := nT _ (n2 _ _ rfl).1
            have h2 := nT _ (n2 _ _ rfl).2
            intro z hz; simp only [List.mem_cons, List.not_mem_nil, or_false] at hz
            rcases hz with rfl | rfl <;> assumption) _ _ hst0 hact.1
          cases (lk (new := [_, _]) h1 hact.1).1
        | call a y =>
          obtain ⟨-, h1, rfl⟩ := old [.core a.entry, .client y] (by simpa using nT _ (n3 _ _ rfl)) _ _ hst0 hact.1
          cases (lk (new := [_, _]) h1 hact.1).1
        | ret v =>
          obtain ⟨-, h1, rfl⟩ := old [] (by simp) _ _ hst0 hact.1
          exact ⟨hact.2.1, .inl rfl⟩
        | throw v =>
          obtain ⟨-, h1, rfl⟩ := old [] (by simp) _ _ hst0 hact.1
          exact ⟨(lk (new := []) h1 hact.1).2, .inl rfl⟩
        | terminate => exact ⟨hact.2.2, (q t pre x rest (hact.1 ▸ hst)).2⟩
      | app f r0 a he hst0 hd hact hA =>
        obtain ⟨ch', hA⟩ := hA
        have no : ∀ new, s'.stk t = new ++ r0 → (∀ y ∈ new, y ≠ (.client (.app (.ckBody x)) : Fr (PTask α) (PFrame α φ))) → False := by
          intro new h1 h2
          obtain ⟨-, h3, -⟩ := old new h2 _ _ hst0 h1
          cases h3
        by_cases hc : (liftAct a).cont = some (.app (.ckBody x))
        · have ha : a = .sync (.lock (gd x.i)) (.ckBody x) := by
            rcases pool_cont hA hc with ⟨g, h⟩ | ⟨b, h⟩ | ⟨y, j, c, -, -, h⟩ | hP
            · cases h
            · cases b <;> cases h
            · cases h
            · clear hA
              generalize s'.data.ad = d2 at hP
              cases hP <;> simp only [liftAct, Act.cont, Option.some.injEq, reduceCtorEq, SFrame.app.injEq, PFrame.ckBody.injEq] at hc <;> subst hc <;> rfl
          subst ha
          have h1 : s'.stk t = .client (.lkIn (gd x.i)) :: .client (.app (.ckBody x)) :: r0 := hact.1
          refine ⟨hact.2.1, ?_⟩
          rw [hst] at h1
          cases pre with
          | nil => simp at h1
          | cons y pre =>
            simp only [List.cons_append, List.cons.injEq] at h1
            obtain ⟨rfl, h1⟩ := h1
            cases pre with
            | nil => exact .inr rfl
            | cons z pre =>
              simp only [List.cons_append, List.cons.injEq] at h1
              obtain ⟨-, h2⟩ := q t (_ :: pre) x rest (by rw [hst0, ← h1.2]; rfl)
              rcases h2 with h2 | h2 <;> cases h2
        · cases a with
          | goto y => exact False.elim <| no [.client (.app y)] hact.1 (by simp; rintro rfl; exact hc rfl)
          | push y z =>
            refine False.elim <| no [.client (.app y), .client (.app z)] hact.1 ?_
            simp
            refine ⟨?_, ?_⟩ <;> rintro rfl
            · generalize hx : (SAct.push (PFrame.ckBody x) z : SAct (PTask α) (PFrame α φ)) = w at hA
              generalize s'.data.ad = ad2 at hA
              cases pool_pc hA with
              | usr g ch u wa hU =>
                have hl := liftP_cases wa
                clear hA hU
                rw [← hx] at hl
                generalize hy : (SAct.push _ z : SAct (PTask α) (PFrame α φ)) = y at hl
                cases hl <;> simp only [SAct.push.injEq, reduceCtorEq, false_and] at hy
                rename_i a _; have h := hy.1; cases a <;> cases h
              | ck => cases hx
              | ps f d' a' hf hb hP => cases hP <;> cases hx
            · exact hc rfl
          | core b y => exact False.elim <| no [.core (mapApi b).entry, .client (.app y)] hact.1 (by simp; rintro rfl; exact hc rfl)
          | sync b y => exact False.elim <| no [.client b.entry, .client (.app y)] hact.1 (by
              intro z hz; simp only [List.mem_cons, List.not_mem_nil, or_false] at hz
              rcases hz with rfl | rfl
              · intro hm; cases b <;> cases hm
              · intro hm; cases hm; exact hc rfl)
          | ret v => exact False.elim <| no [] hact.1 (by simp)
          | throw v => exact False.elim <| no [] hact.1 (by simp)
          | terminate =>
            exact ⟨hact.2.2, (q t pre x rest (hact.1 ▸ hst)).2⟩
      | hand e f f' r0 he hst0 hn hf hst' he' hd had =>
        exfalso
        obtain ⟨h1, -⟩ := old [.client f'] (by
          simp only [List.mem_cons, List.not_mem_nil, or_false, forall_eq]
          intro hm
          cases hm
          cases f <;> simp only [sThrow, Option.map_eq_some_iff, Option.some.injEq, reduceCtorEq, SFrame.app.injEq] at hf <;> (try split at hf) <;> first
            | (cases hf; done)
            | skip
          obtain ⟨y, hy, rfl⟩ := hf
          rcases pool_throw hy with ⟨g, g', -, h⟩ | ⟨i, l, c, K, -, h⟩ | ⟨i, o, K, -, h⟩ | ⟨i, o, l, K, -, h⟩ <;> cases h) _ _ hst0 hst'
        exact ncl he h1
      | drop e f r0 he hst0 hn hf hst' he' hd had => exact (ncl he (old [] (by simp) _ _ hst0 hst').1).elim
      | core f r0 new hst0 hpre hst' hd had =>
        exfalso
        obtain ⟨-, h1, -⟩ := old new (by rintro y hy rfl; exact nT _ (hpre _ hy) rfl) _ _ hst0 hst'
        cases h1
      | still hst' he' hd had =>
        have h2 := q t pre x rest (hst' ▸ hst)
        refine ⟨?_, h2.2⟩
        rcases he' with he' | he'
        · rw [he']; exact h2.1
        · rw [← hst', hst] at he'; simp at he'
    · rcases mv_othT hr (B.codes hr) hs hu with ⟨h1, -⟩ | ⟨h1, y, h2, h3⟩
      · have h2 := q t pre x rest (h1 ▸ hst)
        refine ⟨?_, h2.2⟩
        rw [(step_thr_other (FreeOK.reach hr) hu (by rw [← h1, hst]; simp) hs).2.2.1]
        exact h2.1
      · exfalso
        have hm : Frame.client (SFrame.app (.ckBody x)) ∈ s'.stk t := by rw [hst]; simp
        rw [h2] at hm; simp at hm; subst hm
        exact h3 trivial

end
end Pool
end Itc
