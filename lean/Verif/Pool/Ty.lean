import Verif.Pool.Sec
import Verif.Pool.Spec

/-!
# Thread pool: what is known about frames and functors (proof infrastructure, no claims)
-/
namespace Itc
namespace Pool
open Core Sync
section
variable {α φ δ χ : Type}

def Made (ad : PData α δ) (i : Nat) : Prop := ∃ t, PEv.made t i ∈ ad.plog
def Pkd (ad : PData α δ) (x : Nat) : Prop := ∃ k, PEv.packed k x ∈ ad.plog
def Took (ad : PData α δ) (i id : Nat) (c : Call α) : Prop := ∃ t L h, PEv.took t i L id c h ∈ ad.plog
def Schd (ad : PData α δ) (i id : Nat) (c : Call α) : Prop := ∃ t g, PEv.sched t i id c g ∈ ad.plog
def WkOf (ad : PData α δ) (x : Tok) : Prop := ∃ t n, PEv.worker t x.i x.L n x.w ∈ ad.plog ∧ x.n < ad.ntok

def akOk (ad : PData α δ) (i : Nat) : AK' → Prop
  | .chg => True
  | .sched _ u id => ∃ c, Schd ad i id c ∧ c.u = u

def ckOk (ad : PData α δ) (i : Nat) : CK α → Prop
  | .stop => True
  | .job c => ∃ id, Took ad i id c

def fok (ad : PData α δ) (t : Nat) : PFrame α φ → Prop
  | .newW i _ _ => i < ad.nimp
  | .newReg i _ _ _ _ => i < ad.nimp
  | .newId i _ _ _ _ => i < ad.nimp
  | .scTask k _ _ _ _ => k < ad.ntag
  | .scJob k i _ _ u _ => k < ad.ntag ∧ Made ad i ∧ Pkd ad u
  | .ajIn i _ _ c => Made ad i ∧ Pkd ad c.u ∧ Pkd ad c.p
  | .nw i l o K => Made ad i ∧ (∀ x, x ∈ l ∨ o = some x → x.i = i ∧ WkOf ad x) ∧ akOk ad i K
  | .nwFin i K => Made ad i ∧ akOk ad i K
  | .nwThr i _ => Made ad i
  | .clThr i _ => Made ad i
  | .cpBody i _ _ => Made ad i
  | .unl i _ => Made ad i
  | .clIn i id K => Made ad i ∧ ∀ c, K = .job c → Took ad i id c
  | .clUnl i o K => Made ad i ∧ ckOk ad i K ∧ (∀ c ∈ o, K = .stop → ∃ id, .stopped t i id c ∈ ad.plog)
  | .clFin K => ∃ i, Made ad i ∧ ckOk ad i K
  | .caIn i _ => Made ad i
  | .caLoop i o l _ => Made ad i ∧ (∀ c ∈ o, ∃ id, .discarded t i id c ∈ ad.plog) ∧ ∀ c ∈ l, ∃ id, .discarded t i id c ∈ ad.plog
  | .caFin i _ => Made ad i
  | .diIn i _ => Made ad i
  | .diJoin i _ _ => Made ad i
  | .diStd i _ _ _ => Made ad i
  | .wtBody i _ => Made ad i
  | .wtGo i _ dn l => Made ad i ∧ ∀ p ∈ dn ++ l, ∃ id c, Schd ad i id c ∧ c.p = p
  | .waBody i => Made ad i
  | .cnBody i => Made ad i
  | .ckIn x => Made ad x.i ∧ WkOf ad x
  | .ckBody x => Made ad x.i ∧ WkOf ad x
  | .ckUnl x id o => (Made ad x.i ∧ WkOf ad x) ∧ ∀ c ∈ o, Took ad x.i id c
  | .ckGo x id o => (Made ad x.i ∧ WkOf ad x) ∧ ∀ c ∈ o, Took ad x.i id c
  | .ckRan x id c => (Made ad x.i ∧ WkOf ad x) ∧ Took ad x.i id c
  | _ => True

def lok (ad : PData α δ) : PTask α → Prop
  | .check x => Made ad x.i ∧ WkOf ad x
  | _ => True

structure PLe (ad ad' : PData α δ) : Prop where
  nimp : ad.nimp ≤ ad'.nimp
  ntag : ad.ntag ≤ ad'.ntag
  ntok : ad.ntok ≤ ad'.ntok
  log : ∀ e ∈ ad.plog, e ∈ ad'.plog

variable {ad ad' : PData α δ}

theorem PLe.made (h : PLe ad ad') {i : Nat} : Made ad i → Made ad' i := fun ⟨t, ht⟩ => ⟨t, h.log _ ht⟩
theorem PLe.pkd (h : PLe ad ad') {i : Nat} : Pkd ad i → Pkd ad' i := fun ⟨t, ht⟩ => ⟨t, h.log _ ht⟩
theorem PLe.took (h : PLe ad ad') {i id : Nat} {c : Call α} : Took ad i id c → Took ad' i id c := fun ⟨t, L, x, ht⟩ => ⟨t, L, x, h.log _ ht⟩
theorem PLe.schd (h : PLe ad ad') {i id : Nat} {c : Call α} : Schd ad i id c → Schd ad' i id c := fun ⟨t, x, ht⟩ => ⟨t, x, h.log _ ht⟩
theorem PLe.wkOf (h : PLe ad ad') {x : Tok} : WkOf ad x → WkOf ad' x := fun ⟨t, n, ht, hn⟩ => ⟨t, n, h.log _ ht, Nat.lt_of_lt_of_le hn h.ntok⟩
theorem PLe.ak (h : PLe ad ad') {i : Nat} {K : AK'} (hk : akOk ad i K) : akOk ad' i K := by
  cases K with
  | chg => trivial
  | sched _ u id => obtain ⟨c, h1, h2⟩ := hk; exact ⟨c, h.schd h1, h2⟩
theorem PLe.ck (h : PLe ad ad') {i : Nat} {K : CK α} (hk : ckOk ad i K) : ckOk ad' i K := by
  cases K with
  | stop => trivial
  | job c => obtain ⟨c, h1⟩ := hk; exact ⟨c, h.took h1⟩

theorem PLe.fok (h : PLe ad ad') {t : Nat} {f : PFrame α φ} (hf : fok ad t f) : fok ad' t f := by
  cases f <;> first | trivial | exact h.made hf | exact Nat.lt_of_lt_of_le hf h.nimp | exact Nat.lt_of_lt_of_le hf h.ntag | skip
  case scJob => exact ⟨Nat.lt_of_lt_of_le hf.1 h.ntag, h.made hf.2.1, h.pkd hf.2.2⟩
  case ajIn => exact ⟨h.made hf.1, h.pkd hf.2.1, h.pkd hf.2.2⟩
  case nw => exact ⟨h.made hf.1, fun x hx => ⟨(hf.2.1 x hx).1, h.wkOf (hf.2.1 x hx).2⟩, h.ak hf.2.2⟩
  case nwFin => exact ⟨h.made hf.1, h.ak hf.2⟩
  case clIn => exact ⟨h.made hf.1, fun c hc => h.took (hf.2 c hc)⟩
  case clUnl => exact ⟨h.made hf.1, h.ck hf.2.1, fun c hc hk => (hf.2.2 c hc hk).imp fun _ hi => h.log _ hi⟩
  case clFin => exact hf.imp fun i hi => ⟨h.made hi.1, h.ck hi.2⟩
  case caLoop => exact ⟨h.made hf.1, fun c hc => (hf.2.1 c hc).imp fun _ hi => h.log _ hi, fun c hc => (hf.2.2 c hc).imp fun _ hi => h.log _ hi⟩
  case wtGo => exact ⟨h.made hf.1, fun p hp => (hf.2 p hp).imp fun _ hi => hi.imp fun _ hi => ⟨h.schd hi.1, hi.2⟩⟩
  case ckIn => exact ⟨h.made hf.1, h.wkOf hf.2⟩
  case ckBody => exact ⟨h.made hf.1, h.wkOf hf.2⟩
  case ckUnl => exact ⟨⟨h.made hf.1.1, h.wkOf hf.1.2⟩, fun c hc => h.took (hf.2 c hc)⟩
  case ckGo => exact ⟨⟨h.made hf.1.1, h.wkOf hf.1.2⟩, fun c hc => h.took (hf.2 c hc)⟩
  case ckRan => exact ⟨⟨h.made hf.1.1, h.wkOf hf.1.2⟩, h.took hf.2⟩

theorem PLe.lok (h : PLe ad ad') {a : PTask α} (ha : lok ad a) : lok ad' a := by
  cases a <;> first | trivial | exact ⟨h.made ha.1, h.wkOf ha.2⟩

theorem PLe.refl (ad : PData α δ) : PLe ad ad := ⟨Nat.le_refl _, Nat.le_refl _, Nat.le_refl _, fun _ h => h⟩

theorem mkToks_mem {i lvl : Nat} : ∀ {n : Nat} {l : List Wk} {x : Tok}, x ∈ mkToks i lvl n l → x.i = i ∧ ∃ w ∈ l, w.lvl = x.L ∧ w.id = x.w
  | _, [], x, h => by simp [mkToks] at h
  | n, w :: l, x, h => by
    simp only [mkToks] at h
    split at h
    · rcases List.mem_cons.1 h with rfl | h
      · exact ⟨rfl, w, by simp, rfl, rfl⟩
      · obtain ⟨h1, w', h2, h3⟩ := mkToks_mem h
        exact ⟨h1, w', by simp [h2], h3⟩
    · obtain ⟨h1, w', h2, h3⟩ := mkToks_mem h
      exact ⟨h1, w', by simp [h2], h3⟩

theorem dropEvs_mem {t i : Nat} : ∀ {l : List (Job α)} {e : PEv α}, e ∈ dropEvs t i l ↔
    ∃ j ∈ l, e = (match j.call with | some c => .discarded t i j.id c | none => .forgot t i j.id)
  | [], e => by simp [dropEvs]
  | j :: l, e => by simp only [dropEvs, List.mem_cons, dropEvs_mem]; constructor <;> grind

/-- Facts about the data that the frames need. -/
structure TyI (d : SData (PTask α)) (ad : PData α δ) : Prop where
  made : ∀ {t i}, .made t i ∈ ad.plog → i < ad.nimp
  fresh : ∀ i, ad.nimp ≤ i → ad.imp i = {}
  obj : ∀ {h o i}, ad.obj h = some o → o.impl = some i → Made ad i
  wk : ∀ {i x}, x ∈ (ad.imp i).wk → ∃ t, .worker t i x.lvl x.n x.id ∈ ad.plog
  pk : ∀ {k x}, .packed k x ∈ ad.plog → k < ad.ntag ∧ x < d.nst ∧ (d.st x).home = k ∧ (d.st x).owner = .ext
  jobs : ∀ {i j}, j ∈ (ad.imp i).jobs → ∃ c, Schd ad i j.id c ∧ j.fut = c.p ∧ j.usr = c.u ∧ (∀ c' ∈ j.call, c' = c)

theorem findJob_mem {l : List (Job α)} {id : Nat} {j : Job α} (h : findJob l id = some j) : j ∈ l ∧ j.id = id :=
  ⟨List.mem_of_find?_eq_some h, by simpa using List.find?_some h⟩

def hl : PEv α → Prop
  | .made _ _ => False
  | .packed _ _ => False
  | _ => True

theorem TyI.same {d : SData (PTask α)} (h : TyI d ad) (hle : PLe ad ad') (hn : ad'.nimp = ad.nimp) (him : ad'.imp = ad.imp)
    (ho : ∀ {h o i}, ad'.obj h = some o → o.impl = some i → Made ad' i) (hlog : ∀ e ∈ ad'.plog, e ∈ ad.plog ∨ hl e) : TyI d ad' where
  made {t i} h1 := by
    rcases hlog _ h1 with h1 | h1
    · rw [hn]; exact h.made h1
    · exact h1.elim
  fresh i h1 := by rw [him]; exact h.fresh i (hn ▸ h1)
  obj := ho
  wk {i x} h1 := by rw [him] at h1; exact (h.wk h1).imp fun t ht => hle.log _ ht
  pk {k x} h1 := by
    rcases hlog _ h1 with h1 | h1
    · have := h.pk h1; exact ⟨Nat.lt_of_lt_of_le this.1 hle.ntag, this.2⟩
    · exact h1.elim
  jobs {i j} h1 := by
    rw [him] at h1
    obtain ⟨c, h2, h3⟩ := h.jobs h1
    exact ⟨c, hle.schd h2, h3⟩

theorem TyI.upd {d : SData (PTask α)} (h : TyI d ad) {i : Nat} {x : Imp α} (hle : PLe ad ad') (hi : i < ad.nimp) (hn : ad'.nimp = ad.nimp)
    (him : ad'.imp = set ad.imp i x) (ho : ad'.obj = ad.obj) (hlog : ∀ e ∈ ad'.plog, e ∈ ad.plog ∨ hl e)
    (hwk : ∀ y ∈ x.wk, y ∈ (ad.imp i).wk ∨ ∃ t, .worker t i y.lvl y.n y.id ∈ ad'.plog)
    (hjobs : ∀ j ∈ x.jobs, (∃ j' ∈ (ad.imp i).jobs, j.id = j'.id ∧ j.fut = j'.fut ∧ j.usr = j'.usr ∧ (j.call = none ∨ j.call = j'.call)) ∨
      ∃ c, Schd ad' i j.id c ∧ j.fut = c.p ∧ j.usr = c.u ∧ (∀ c' ∈ j.call, c' = c)) : TyI d ad' where
  made {t i} h1 := by
    rcases hlog _ h1 with h1 | h1
    · rw [hn]; exact h.made h1
    · exact h1.elim
  fresh i' h1 := by rw [him, set_ne _ _ (by omega)]; exact h.fresh i' (hn ▸ h1)
  obj {h' o j} h1 h2 := by rw [ho] at h1; exact hle.made (h.obj h1 h2)
  wk {i' y} h1 := by
    rw [him] at h1
    by_cases hh : i' = i
    · subst hh
      rw [set_same] at h1
      rcases hwk y h1 with h1 | h1
      · exact (h.wk h1).imp fun t ht => hle.log _ ht
      · exact h1
    · rw [set_ne _ _ hh] at h1; exact (h.wk h1).imp fun t ht => hle.log _ ht
  pk {k x} h1 := by
    rcases hlog _ h1 with h1 | h1
    · have := h.pk h1; exact ⟨Nat.lt_of_lt_of_le this.1 hle.ntag, this.2⟩
    · exact h1.elim
  jobs {i' j} h1 := by
    rw [him] at h1
    have old : ∀ j ∈ (ad.imp i').jobs, ∃ c, Schd ad' i' j.id c ∧ j.fut = c.p ∧ j.usr = c.u ∧ (∀ c' ∈ j.call, c' = c) := by
      intro j hj
      obtain ⟨c, h2, h3⟩ := h.jobs hj
      exact ⟨c, hle.schd h2, h3⟩
    by_cases hh : i' = i
    · subst hh
      rw [set_same] at h1
      rcases hjobs j h1 with ⟨j', h2, h3, h4, h5, h6⟩ | h1
      · obtain ⟨c, h7, h8, h9, h10⟩ := old j' h2
        refine ⟨c, h3 ▸ h7, h4.trans h8, h5.trans h9, ?_⟩
        intro c' hc'
        rcases h6 with h6 | h6
        · rw [h6] at hc'; simp at hc'
        · exact h10 c' (h6 ▸ hc')
      · exact h1
    · rw [set_ne _ _ hh] at h1; exact old j h1

theorem modJob_mem {l : List (Job α)} {id : Nat} {f : Job α → Job α} {j : Job α} (h : j ∈ modJob l id f) :
    ∃ j' ∈ l, j = j' ∨ j'.id = id ∧ j = f j' := by
  simp only [modJob, List.mem_map] at h
  obtain ⟨j', h1, h2⟩ := h
  refine ⟨j', h1, ?_⟩
  split at h2
  · exact .inr ⟨‹_›, h2.symm⟩
  · exact .inl h2.symm

theorem erase_mem {l : List (Job α)} {id : Nat} {j : Job α} : j ∈ erase l id ↔ j ∈ l ∧ j.id ≠ id := by simp [erase]

theorem deref_made {d : SData (PTask α)} (h : TyI d ad) {x i : Nat} (hi : ad.deref x = some i) : Made ad i := by
  unfold PData.deref at hi
  cases ho : ad.obj x with
  | none => rw [ho] at hi; cases hi
  | some o => rw [ho] at hi; exact h.obj ho hi

theorem liftP_ok {W : Nat → PTask α → Prop} {L : PTask α → Prop} {F : Nat → PFrame α φ → Prop} {Q : SApi (PTask α) → Prop}
    {X : Nat → PTask α → Prop} {R : Nat → Nat → PTask α → Prop} {D : PTask α → Prop} (h1 : ∀ t g, F t (.usr g)) (h2 : ∀ q a, W q (.usr a)) (h3 : ∀ a, L (.usr a)) (h4 : ∀ t a, F t (PApi.entry a)) (h5 : ∀ a, Q a) (t : Nat)
    (a : PAct α φ) : saOk W L F Q X R D t (liftP a) := by
  have hl := liftP_cases a
  generalize liftP a = y at hl
  cases hl
  · exact h1 _ _
  · exact ⟨h1 _ _, h1 _ _⟩
  · exact ⟨h1 _ _, mapP_ok h1 h3 _⟩
  · rename_i b b' k hm
    refine ⟨h1 _ _, ?_⟩
    cases b <;> simp only [mapS, Option.some.injEq, reduceCtorEq] at hm <;> subst hm <;> first | exact h5 _ | exact h3 _ | skip
    rename_i p _ _ _ _
    cases p <;> first | trivial | exact h2 _ _
  · exact ⟨h4 _ _, h1 _ _⟩
  all_goals trivial


theorem PLe.ev (ad : PData α δ) (e : PEv α) : PLe ad (ad.ev e) := ⟨Nat.le_refl _, Nat.le_refl _, Nat.le_refl _, fun _ h => List.mem_cons_of_mem _ h⟩

theorem hl_cons {l : List (PEv α)} {e : PEv α} (he : hl e) : ∀ x ∈ e :: l, x ∈ l ∨ hl x := by
  intro x hx
  rcases List.mem_cons.1 hx with rfl | hx
  · exact .inr he
  · exact .inl hx

theorem TyI.ev {d : SData (PTask α)} (h : TyI d ad) (e : PEv α) (he : hl e) : TyI d (ad.ev e) :=
  h.same (.ev ad e) rfl rfl (fun h1 h2 => (PLe.ev ad e).made (h.obj h1 h2)) (hl_cons he)

def NewOk (d : SData (PTask α)) (ad ad' : PData α δ) (t : Nat) (sa : SAct (PTask α) (PFrame α φ)) : Prop :=
  TyI d ad' ∧ PLe ad ad' ∧ saOk (fun _ => lok ad') (lok ad') (fok ad') (fun _ => True) (fun _ _ => True) (fun _ _ => lok ad') (lok ad') t sa

theorem wait_le {v : View} {ad : PData α δ} {i k : Nat} {dn : List Nat} : PLe ad (waitEv v ad i k dn) := by
  cases dn <;> first | exact .refl _ | exact .ev _ _

theorem TyI.wait {d : SData (PTask α)} (h : TyI d ad) {v : View} {i k : Nat} {dn : List Nat} : TyI d (waitEv v ad i k dn) := by
  cases dn <;> first | exact h | exact h.ev _ trivial

theorem mkToks_n {i lvl : Nat} {x : Tok} : ∀ {wk : List Wk} {n : Nat}, x ∈ mkToks i lvl n wk → n ≤ x.n ∧ x.n < n + (mkToks i lvl n wk).length
  | [], _, h => by cases h
  | w :: wk, n, h => by
    simp only [mkToks] at h ⊢
    split at h
    · rename_i hl
      simp only [hl, if_true, List.length_cons]
      rcases List.mem_cons.1 h with rfl | h
      · exact ⟨Nat.le_refl _, by simp⟩
      · have := mkToks_n h; omega
    · rename_i hl
      simp only [hl, if_false]
      exact mkToks_n h

theorem ty_ps {d : SData (PTask α)} {v : View} {rv : Val} {f : PFrame α φ} {sa : SAct (PTask α) (PFrame α φ)} (hi : TyI d ad)
    (hp : fok ad v.tid f) (hk : ∀ a, oneE f = some a → oneR d a rv) (hP : PS v ad rv f ad' sa) : NewOk d ad ad' v.tid sa := by
  have hd := fun {x i} => deref_made hi (x := x) (i := i)
  have hm : ∀ {i}, Made ad i → i < ad.nimp := fun ⟨t, ht⟩ => hi.made ht
  have toks : ∀ (ad' : PData α δ) (i lvl : Nat), PLe ad ad' → ad'.ntok = ad.ntok + (mkToks i lvl ad.ntok (ad.imp i).wk).length →
      ∀ x, x ∈ mkToks i lvl ad.ntok (ad.imp i).wk ∨ (none : Option Tok) = some x → x.i = i ∧ WkOf ad' x := by
    intro ad' i lvl hle hn x hx
    replace hx := hx.resolve_right (by simp)
    obtain ⟨h1, w, h2, h3, h4⟩ := mkToks_mem hx
    obtain ⟨t, ht⟩ := hi.wk h2
    exact ⟨h1, t, w.n, by rw [h1, ← h3, ← h4]; exact hle.log _ ht, by rw [hn]; exact (mkToks_n hx).2⟩
  cases hP
  case newIn h ws hn =>
    refine ⟨⟨?_, ?_, ?_, ?_, ?_, ?_⟩, ⟨Nat.le_succ _, Nat.le_refl _, Nat.le_refl _, fun _ h => h⟩, Nat.lt_succ_self _⟩
    · intro t i h; exact Nat.lt_succ_of_lt (hi.made h)
    · intro i h
      have h : ad.nimp + 1 ≤ i := h
      show set ad.imp _ _ i = _
      rw [set_ne _ _ (by omega)]; exact hi.fresh i (by omega)
    · exact hi.obj
    · intro i x h
      have h : x ∈ (set ad.imp ad.nimp {} i).wk := h
      by_cases hh : i = ad.nimp
      · subst hh; rw [set_same] at h; simp at h
      · rw [set_ne _ _ hh] at h; exact hi.wk h
    · exact hi.pk
    · intro i x h
      have h : x ∈ (set ad.imp ad.nimp {} i).jobs := h
      by_cases hh : i = ad.nimp
      · subst hh; rw [set_same] at h; simp at h
      · rw [set_ne _ _ hh] at h; exact hi.jobs h
  case newEnd i h =>
    have hle := PLe.ev ad (.made v.tid i)
    refine ⟨⟨?_, hi.fresh, ?_, ?_, ?_, ?_⟩, ⟨Nat.le_refl _, Nat.le_refl _, Nat.le_refl _, fun _ h => List.mem_cons_of_mem _ h⟩, trivial⟩
    · intro t j hj
      rcases List.mem_cons.1 hj with hj | hj
      · cases hj; exact hp
      · exact hi.made hj
    · intro h' o j h1 h2
      have h1 : set ad.obj h (some ⟨some i, some ad.nsen⟩) h' = some o := h1
      by_cases hh : h' = h
      · subst hh
        rw [set_same] at h1
        cases h1
        cases h2
        exact ⟨v.tid, by simp [PData.ev]⟩
      · rw [set_ne _ _ hh] at h1; exact hle.made (hi.obj h1 h2)
    · intro j x h; exact (hi.wk h).imp fun _ h => hle.log _ h
    · intro k x h
      rcases List.mem_cons.1 h with h | h
      · cases h
      · exact hi.pk h
    · intro j x h
      obtain ⟨c, h1, h2⟩ := hi.jobs h
      exact ⟨c, hle.schd h1, h2⟩
  case newId i h l n ws id hv =>
    have hle : PLe ad ((ad.upd i { ad.imp i with wk := (ad.imp i).wk ++ [⟨l, n, id⟩] }).ev (.worker v.tid i l n id)) :=
      ⟨Nat.le_refl _, Nat.le_refl _, Nat.le_refl _, fun _ h => List.mem_cons_of_mem _ h⟩
    refine ⟨hi.upd (x := { ad.imp i with wk := (ad.imp i).wk ++ [⟨l, n, id⟩] }) hle hp rfl rfl rfl (hl_cons trivial) ?_ ?_, hle, hp⟩
    · intro y hy
      rcases List.mem_append.1 hy with hy | hy
      · exact .inl hy
      · simp at hy; subst hy; exact .inr ⟨v.tid, by simp [PData.ev]⟩
    · intro j hj; exact .inl ⟨j, hj, rfl, rfl, rfl, .inr rfl⟩
  case scIn h g b a =>
    have hle : PLe ad { ad with ntag := ad.ntag + 1 } := ⟨Nat.le_refl _, Nat.le_succ _, Nat.le_refl _, fun _ h => h⟩
    exact ⟨hi.same hle rfl rfl hi.obj (fun _ h => .inl h), hle, Nat.lt_succ_self _, trivial⟩
  case scTask k b h g a u i hv hd' =>
    have hle : PLe ad { ad.ev (.packed k u) with ntag := ad.ntag + 1 } := ⟨Nat.le_refl _, Nat.le_succ _, Nat.le_refl _, fun _ h => List.mem_cons_of_mem _ h⟩
    obtain ⟨p, h1, h2⟩ := hk _ rfl
    rw [hv] at h1
    cases h1
    refine ⟨⟨?_, hi.fresh, ?_, ?_, ?_, ?_⟩, hle, ⟨Nat.lt_succ_self _, hle.made (hd hd'), k, by simp [PData.ev]⟩, trivial⟩
    · intro t j hj
      rcases List.mem_cons.1 hj with hj | hj
      · cases hj
      · exact hi.made hj
    · intro h' o j h1 h2; exact hle.made (hi.obj h1 h2)
    · intro j x h; exact (hi.wk h).imp fun _ h => hle.log _ h
    · intro k' x h
      rcases List.mem_cons.1 h with h | h
      · cases h; exact ⟨Nat.lt_succ_of_lt hp, h2⟩
      · have := hi.pk h; exact ⟨Nat.lt_succ_of_lt this.1, this.2⟩
    · intro j x h
      obtain ⟨c, h1, h2⟩ := hi.jobs h
      exact ⟨c, hle.schd h1, h2⟩
  case scJob k i h g u a p hv =>
    have hle := PLe.ev ad (.packed k p)
    obtain ⟨p, h1, h2⟩ := hk _ rfl
    rw [hv] at h1
    cases h1
    refine ⟨⟨?_, hi.fresh, ?_, ?_, ?_, ?_⟩, hle, ⟨hle.made hp.2.1, hle.pkd hp.2.2, k, by simp [PData.ev]⟩, trivial⟩
    · intro t j hj
      rcases List.mem_cons.1 hj with hj | hj
      · cases hj
      · exact hi.made hj
    · intro h' o j h1 h2; exact hle.made (hi.obj h1 h2)
    · intro j x h; exact (hi.wk h).imp fun _ h => hle.log _ h
    · intro k' x h
      rcases List.mem_cons.1 h with h | h
      · cases h; exact ⟨hp.1, h2⟩
      · exact hi.pk h
    · intro j x h
      obtain ⟨c, h1, h2⟩ := hi.jobs h
      exact ⟨c, hle.schd h1, h2⟩
  case ajIn i h g c =>
    have hle : PLe ad (addH (insJob v.tid ad i g c) i ⟨(ad.imp i).free, g⟩) := ⟨Nat.le_refl _, Nat.le_refl _, Nat.le_add_right _ _, fun _ h => List.mem_cons_of_mem _ h⟩
    have hsc : Schd (addH (insJob v.tid ad i g c) i ⟨(ad.imp i).free, g⟩) i (ad.imp i).free c := ⟨v.tid, g, by simp [addH, insJob, PData.ev, PData.upd]⟩
    refine ⟨hi.upd (i := i) (x := (addH (insJob v.tid ad i g c) i ⟨(ad.imp i).free, g⟩).imp i) hle (hm hp.1) rfl ?_ rfl (hl_cons trivial) ?_ ?_, hle, ?_⟩
    · funext j
      by_cases hj : j = i
      · subst hj; simp [addH, insJob, PData.ev, PData.upd, Sync.set]
      · simp [addH, insJob, PData.ev, PData.upd, Sync.set, hj]
    · intro y hy
      simp only [addH, insJob, PData.ev, PData.upd, set_same] at hy
      exact .inl hy
    · intro j hj
      simp only [addH, insJob, PData.ev, PData.upd, set_same, List.mem_append, List.mem_singleton] at hj
      rcases hj with hj | rfl
      · exact .inl ⟨j, hj, rfl, rfl, rfl, .inr rfl⟩
      · exact .inr ⟨c, hsc, rfl, rfl, by simp⟩
    · exact ⟨hle.made hp.1, toks _ i g.lvl hle (by simp [addH, insJob, chgJob, PData.ev, PData.upd]), c, hsc, rfl⟩
  case cpBody i id g j c hj hc hg =>
    have hle : PLe ad (addH (chgJob v.tid ad i id g) i ⟨j.id, g⟩) := ⟨Nat.le_refl _, Nat.le_refl _, Nat.le_add_right _ _, fun _ h => List.mem_cons_of_mem _ h⟩
    refine ⟨hi.upd (i := i) (x := (addH (chgJob v.tid ad i id g) i ⟨j.id, g⟩).imp i) hle (hm hp) rfl ?_ rfl (hl_cons trivial) ?_ ?_, hle, ?_⟩
    · funext j
      by_cases hj : j = i
      · subst hj; simp [addH, chgJob, PData.ev, PData.upd, Sync.set]
      · simp [addH, chgJob, PData.ev, PData.upd, Sync.set, hj]
    · intro y hy
      simp only [addH, chgJob, PData.ev, PData.upd, set_same] at hy
      exact .inl hy
    · intro j hj
      simp only [addH, chgJob, PData.ev, PData.upd, set_same] at hj
      obtain ⟨j', h1, rfl | ⟨h2, rfl⟩⟩ := modJob_mem hj
      · exact .inl ⟨j, h1, rfl, rfl, rfl, .inr rfl⟩
      · exact .inl ⟨j', h1, rfl, rfl, rfl, .inr rfl⟩
    · exact ⟨hle.made hp, toks _ i g.lvl hle (by simp [addH, insJob, chgJob, PData.ev, PData.upd]), trivial⟩
  case nwGo i x l cur K =>
    have h1 := hp.2.1 x (by simp)
    refine ⟨hi, .refl _, ⟨hp.1, ?_, hp.2.2⟩, h1.1 ▸ hp.1, h1.2⟩
    rintro y (hy | hy)
    · exact hp.2.1 y (by simp [hy])
    · cases hy; exact h1
  case stop i id j c hj hc =>
    have hle : PLe ad ((eraseJob ad i id).ev (.stopped v.tid i id c)) := ⟨Nat.le_refl _, Nat.le_refl _, Nat.le_refl _, fun _ h => List.mem_cons_of_mem _ h⟩
    refine ⟨hi.upd (x := { ad.imp i with jobs := erase (ad.imp i).jobs id }) hle (hm hp.1) rfl rfl rfl (hl_cons trivial) (fun _ h => .inl h) ?_, hle,
      ⟨hle.made hp.1, trivial, ?_⟩, trivial, trivial⟩
    · intro j hj; exact .inl ⟨j, (erase_mem.1 hj).1, rfl, rfl, rfl, .inr rfl⟩
    · intro c' hc' _; cases hc'; exact ⟨id, by simp [PData.ev]⟩
  case clNo i id c hn =>
    have hle : PLe ad (ad.ev (.done v.tid i id c)) := .ev _ _
    exact ⟨hi.ev _ trivial, hle, hle.made hp.1, ⟨id, hle.took (hp.2 c rfl)⟩, by simp⟩
  case clJob i id c j hj hc =>
    have hle : PLe ad ((eraseJob ad i id).ev (.done v.tid i id c)) := ⟨Nat.le_refl _, Nat.le_refl _, Nat.le_refl _, fun _ h => List.mem_cons_of_mem _ h⟩
    refine ⟨hi.upd (x := { ad.imp i with jobs := erase (ad.imp i).jobs id }) hle (hm hp.1) rfl rfl rfl (hl_cons trivial) (fun _ h => .inl h) ?_, hle,
      hle.made hp.1, ⟨id, hle.took (hp.2 c rfl)⟩, by simp⟩
    · intro j hj; exact .inl ⟨j, (erase_mem.1 hj).1, rfl, rfl, rfl, .inr rfl⟩
  case clDrop i id c j c' hj hc =>
    have hle : PLe ad ((eraseJob ad i id).ev (.done v.tid i id c)) := ⟨Nat.le_refl _, Nat.le_refl _, Nat.le_refl _, fun _ h => List.mem_cons_of_mem _ h⟩
    refine ⟨hi.upd (x := { ad.imp i with jobs := erase (ad.imp i).jobs id }) hle (hm hp.1) rfl rfl rfl (hl_cons trivial) (fun _ h => .inl h) ?_, hle,
      ⟨hle.made hp.1, ⟨id, hle.took (hp.2 c rfl)⟩, by simp⟩, trivial, trivial⟩
    · intro j hj; exact .inl ⟨j, (erase_mem.1 hj).1, rfl, rfl, rfl, .inr rfl⟩
  case stNo i id hn =>
    have hle : PLe ad (ad.ev (.noStop v.tid i id)) := .ev _ _
    exact ⟨hi.ev _ trivial, hle, hle.made hp.1, trivial, by simp⟩
  case caIn i K =>
    have hle : PLe ad { ad.upd i { ad.imp i with jobs := [] } with plog := dropEvs v.tid i (ad.imp i).jobs ++ ad.plog } :=
      ⟨Nat.le_refl _, Nat.le_refl _, Nat.le_refl _, fun _ h => List.mem_append_right _ h⟩
    refine ⟨hi.upd (x := { ad.imp i with jobs := [] }) hle (hm hp) rfl rfl rfl ?_ (fun _ h => .inl h) (by simp), hle, hle.made hp, by simp, ?_⟩
    · intro e he
      rcases List.mem_append.1 he with he | he
      · obtain ⟨j, -, rfl⟩ := dropEvs_mem.1 he
        right; split <;> trivial
      · exact .inl he
    · intro c hc
      obtain ⟨j, h1, h2⟩ := List.mem_filterMap.1 hc
      exact ⟨j.id, List.mem_append_left _ (dropEvs_mem.2 ⟨j, h1, by rw [h2]⟩)⟩
  case caLoop i o c l K =>
    refine ⟨hi, .refl _, ⟨hp.1, ?_, ?_⟩, trivial, trivial⟩
    · intro c' hc'; cases hc'; exact hp.2.2 c (by simp)
    · intro c' hc'; exact hp.2.2 c' (by simp [hc'])
  case caEnd i o K =>
    have hle : PLe ad (ad.upd i { ad.imp i with q := [] }) := ⟨Nat.le_refl _, Nat.le_refl _, Nat.le_refl _, fun _ h => h⟩
    exact ⟨hi.upd (x := { ad.imp i with q := [] }) hle (hm hp.1) rfl rfl rfl (fun _ h => .inl h) (fun _ h => .inl h)
      fun j hj => .inl ⟨j, hj, rfl, rfl, rfl, .inr rfl⟩, hle, hp.1, trivial⟩
  case diIn i K =>
    have hle : PLe ad ((ad.upd i { ad.imp i with wk := [] }).ev (.parted v.tid i)) := ⟨Nat.le_refl _, Nat.le_refl _, Nat.le_refl _, fun _ h => List.mem_cons_of_mem _ h⟩
    exact ⟨hi.upd (x := { ad.imp i with wk := [] }) hle (hm hp) rfl rfl rfl (hl_cons trivial) (by simp)
      fun j hj => .inl ⟨j, hj, rfl, rfl, rfl, .inr rfl⟩, hle, hle.made hp, trivial⟩
  case delNo h o ho hi' hd' =>
    subst hd'
    refine ⟨hi.same ⟨Nat.le_refl _, Nat.le_refl _, Nat.le_refl _, fun _ h => h⟩ rfl rfl ?_ (fun _ h => .inl h), ⟨Nat.le_refl _, Nat.le_refl _, Nat.le_refl _, fun _ h => h⟩, trivial⟩
    intro h' o' i' h1 h2
    dsimp only at h1
    by_cases hh : h' = h
    · subst hh; rw [set_same] at h1; cases h1; rw [hi'] at h2; cases h2
    · rw [set_ne _ _ hh] at h1; exact hi.obj h1 h2
  case delIn h o i hq ho hi' hd' =>
    subst hd'
    have hle := PLe.ev ad (.dies v.tid i)
    refine ⟨hi.same (ad' := { (ad.ev (.dies v.tid i)) with obj := _, live := _, mix := _, dying := _ }) ⟨Nat.le_refl _, Nat.le_refl _, Nat.le_refl _, fun _ h => List.mem_cons_of_mem _ h⟩ rfl rfl ?_ (hl_cons trivial),
      ⟨Nat.le_refl _, Nat.le_refl _, Nat.le_refl _, fun _ h => List.mem_cons_of_mem _ h⟩, hle.made (hi.obj ho hi'), trivial⟩
    intro h' o' i' h1 h2
    dsimp only at h1
    by_cases hh : h' = h
    · subst hh; rw [set_same] at h1; cases h1; exact hle.made (hi.obj ho h2)
    · rw [set_ne _ _ hh] at h1; exact hle.made (hi.obj h1 h2)
  case diEnd h =>
    refine ⟨hi.same ⟨Nat.le_refl _, Nat.le_refl _, Nat.le_refl _, fun _ h => h⟩ rfl rfl ?_ (fun _ h => .inl h), ⟨Nat.le_refl _, Nat.le_refl _, Nat.le_refl _, fun _ h => h⟩, trivial⟩
    intro h' o' i' h1 h2
    dsimp only at h1
    by_cases hh : h' = h
    · subst hh; rw [set_same] at h1; cases h1
    · rw [set_ne _ _ hh] at h1; exact hi.obj h1 h2
  case maEnd h h' o o' ho ho' hd' =>
    subst hd'
    refine ⟨hi.same ⟨Nat.le_refl _, Nat.le_refl _, Nat.le_refl _, fun _ h => h⟩ rfl rfl ?_ (fun _ h => .inl h), ⟨Nat.le_refl _, Nat.le_refl _, Nat.le_refl _, fun _ h => h⟩, trivial⟩
    intro x ox i' h1 h2
    dsimp only at h1
    by_cases hh : x = h'
    · subst hh; rw [set_same] at h1; cases h1; exact hi.obj ho' h2
    · rw [set_ne _ _ hh] at h1
      by_cases hx : x = h
      · subst hx; rw [set_same] at h1; cases h1; exact hi.obj ho h2
      · rw [set_ne _ _ hx] at h1; exact hi.obj h1 h2
  case mvIn h h' o hn ho =>
    refine ⟨hi.same ⟨Nat.le_refl _, Nat.le_refl _, Nat.le_refl _, fun _ h => h⟩ rfl rfl ?_ (fun _ h => .inl h), ⟨Nat.le_refl _, Nat.le_refl _, Nat.le_refl _, fun _ h => h⟩, trivial⟩
    intro x ox i' h1 h2
    dsimp only at h1
    by_cases hh : x = h'
    · subst hh; rw [set_same] at h1; cases h1; cases h2
    · rw [set_ne _ _ hh] at h1
      by_cases hx : x = h
      · subst hx; rw [set_same] at h1; cases h1; exact hi.obj ho h2
      · rw [set_ne _ _ hx] at h1; exact hi.obj h1 h2
  case maNo h h' o o' hne ho ho' hi' hd' =>
    subst hd'
    refine ⟨hi.same ⟨Nat.le_refl _, Nat.le_refl _, Nat.le_refl _, fun _ h => h⟩ rfl rfl ?_ (fun _ h => .inl h), ⟨Nat.le_refl _, Nat.le_refl _, Nat.le_refl _, fun _ h => h⟩, trivial⟩
    intro x ox i' h1 h2
    dsimp only at h1
    by_cases hh : x = h'
    · subst hh; rw [set_same] at h1; cases h1; cases h2
    · rw [set_ne _ _ hh] at h1
      by_cases hx : x = h
      · subst hx; rw [set_same] at h1; cases h1; exact hi.obj ho' h2
      · rw [set_ne _ _ hx] at h1; exact hi.obj h1 h2
  case maIn h h' o o' i hq hne ho ho' hi' hd' =>
    subst hd'
    have hle := PLe.ev ad (.dies v.tid i)
    refine ⟨hi.same (ad' := { (ad.ev (.dies v.tid i)) with obj := _, live := _, mix := _, dying := _ }) ⟨Nat.le_refl _, Nat.le_refl _, Nat.le_refl _, fun _ h => List.mem_cons_of_mem _ h⟩ rfl rfl ?_ (hl_cons trivial),
      ⟨Nat.le_refl _, Nat.le_refl _, Nat.le_refl _, fun _ h => List.mem_cons_of_mem _ h⟩, hle.made (hi.obj ho hi'), trivial⟩
    intro x ox i' h1 h2
    dsimp only at h1
    by_cases hh : x = h'
    · subst hh; rw [set_same] at h1; cases h1; cases h2
    · rw [set_ne _ _ hh] at h1
      by_cases hx : x = h
      · subst hx; rw [set_same] at h1; cases h1; exact hle.made (hi.obj ho' h2)
      · rw [set_ne _ _ hx] at h1; exact hle.made (hi.obj h1 h2)
  case wtNo i id hn =>
    have hle : PLe ad (ad.ev (.waits v.tid i id none)) := .ev _ _
    exact ⟨hi.ev _ trivial, hle, ⟨hle.made hp, by simp⟩, trivial⟩
  case wtBody i id j hj =>
    have hle : PLe ad (ad.ev (.waits v.tid i id (some j.fut))) := .ev _ _
    refine ⟨hi.ev _ trivial, hle, ⟨hle.made hp, ?_⟩, trivial⟩
    intro p hp'
    simp at hp'
    subst hp'
    obtain ⟨c, h1, h2, -⟩ := hi.jobs (findJob_mem hj).1
    exact ⟨_, c, hle.schd h1, h2.symm⟩
  case waBody i =>
    have hle : PLe ad (ad.ev (.waitsAll v.tid i ((ad.imp i).jobs.map fun j => (j.id, j.fut)))) := .ev _ _
    refine ⟨hi.ev _ trivial, hle, ⟨hle.made hp, ?_⟩, trivial⟩
    intro p hp'
    simp only [List.nil_append, List.mem_map] at hp'
    obtain ⟨j, hj, rfl⟩ := hp'
    obtain ⟨c, h1, h2, -⟩ := hi.jobs hj
    exact ⟨_, c, hle.schd h1, h2.symm⟩
  case wtEnd i k dn =>
    exact ⟨hi.wait.ev _ trivial, ⟨wait_le.nimp, wait_le.ntag, wait_le.ntok, fun _ h => List.mem_cons_of_mem _ (wait_le.log _ h)⟩, trivial⟩
  case wtGo i k dn p l =>
    refine ⟨hi.wait, wait_le, ⟨wait_le.made hp.1, ?_⟩, trivial⟩
    intro p' hp'
    obtain ⟨id, c, h1, h2⟩ := hp.2 p' (by simp at hp' ⊢; grind)
    exact ⟨id, c, wait_le.schd h1, h2⟩
  case ckExit x hx =>
    have hle : PLe ad ((ad.close x).ev (.exits v.tid x)) := ⟨Nat.le_refl _, Nat.le_refl _, Nat.le_refl _, fun _ h => List.mem_cons_of_mem _ h⟩
    exact ⟨hi.same hle rfl rfl (fun h1 h2 => hle.made (hi.obj h1 h2)) (hl_cons trivial), hle, trivial⟩
  all_goals first
    | exact ⟨hi, .refl _, trivial⟩
    | exact ⟨hi, .refl _, hp⟩
    | exact ⟨hi, .refl _, hp, trivial⟩
    | exact ⟨hi, .refl _, trivial, trivial, trivial⟩
    | exact ⟨hi, .refl _, hp, trivial, trivial⟩
    | exact ⟨hi, .refl _, ⟨hp.1, hp.2 _ rfl⟩, trivial, trivial⟩
    | exact ⟨hi, .refl _, trivial, trivial⟩
    | exact ⟨hi, .refl _, trivial, fun _ => trivial⟩
    | exact ⟨hi, .refl _, hp, fun _ => trivial⟩
    | exact ⟨hi, .refl _, hd ‹_›, trivial⟩
    | exact ⟨hi, .refl _, ⟨hd ‹_›, by simp⟩, trivial⟩
    | exact ⟨hi, .refl _, ⟨hp.1, hp.2.2⟩, trivial⟩
    | exact ⟨hi, .refl _, ⟨_, hp.1, hp.2.1⟩, trivial⟩
    | exact ⟨hi, .refl _, ⟨hp.1, fun c hc => by cases hc; exact hp.2⟩, trivial⟩
    | exact ⟨hi, .refl _, ⟨hp.1.1, fun c hc => by cases hc; exact hp.2⟩, trivial⟩
    | exact ⟨hi, .refl _, ⟨hp.1, hp.2 _ rfl⟩, trivial⟩
    | exact ⟨hi.ev _ trivial, .ev _ _, trivial⟩
    | exact ⟨hi.ev _ trivial, .ev _ _, trivial, trivial⟩
    | exact ⟨hi.ev _ trivial, .ev _ _, (PLe.ev _ _).made hp⟩
    | exact ⟨hi.ev _ trivial, .ev _ _, (PLe.ev _ _).made hp, trivial⟩
    | skip

theorem ty_ck {d : SData (PTask α)} {t : Nat} {x : Tok} {id : Nat} {c : Option (Call α)} (hi : TyI d ad) (hp : fok ad t (.ckBody x : PFrame α φ))
    (hP : PK t ad x.i x.L ad' id c) : NewOk d ad (ad'.close x) t (.goto (.ckUnl x id c) : SAct (PTask α) (PFrame α φ)) := by
  have hm : ∀ {i}, Made ad i → i < ad.nimp := fun ⟨t, ht⟩ => hi.made ht
  have key : TyI d ad' ∧ PLe ad ad' ∧ ∀ c' ∈ c, Took ad' x.i id c' := by
    cases hP with
    | idle he => exact ⟨hi.ev _ trivial, .ev _ _, by simp⟩
    | skip k h id ht hk hn =>
      refine ⟨hi.upd (i := x.i) (x := { ad.imp x.i with q := (ad.imp x.i).q.eraseIdx k }) ?_ (hm hp.1) rfl rfl rfl (hl_cons trivial)
        (fun _ h => .inl h) fun j hj => .inl ⟨j, hj, rfl, rfl, rfl, .inr rfl⟩, ?_, by simp⟩ <;>
        exact ⟨Nat.le_refl _, Nat.le_refl _, Nat.le_refl _, fun _ h => List.mem_cons_of_mem _ h⟩
    | took k h j c' ht hk hj hL hc =>
      refine ⟨hi.upd (i := x.i) (x := { ad.imp x.i with q := (ad.imp x.i).q.eraseIdx k, jobs := modJob (ad.imp x.i).jobs h.id fun j => { j with call := none } })
        ?_ (hm hp.1) rfl rfl rfl (hl_cons trivial) (fun _ h => .inl h) ?_, ?_, ?_⟩
      · exact ⟨Nat.le_refl _, Nat.le_refl _, Nat.le_refl _, fun _ h => List.mem_cons_of_mem _ h⟩
      · intro j hj
        obtain ⟨j', h1, rfl | ⟨h2, rfl⟩⟩ := modJob_mem hj
        · exact .inl ⟨j, h1, rfl, rfl, rfl, .inr rfl⟩
        · exact .inl ⟨j', h1, rfl, rfl, rfl, .inl rfl⟩
      · exact ⟨Nat.le_refl _, Nat.le_refl _, Nat.le_refl _, fun _ h => List.mem_cons_of_mem _ h⟩
      · intro c'' h''; cases h''; exact ⟨t, x.L, h, by simp [PData.ev]⟩
  obtain ⟨h1, h2, h3⟩ := key
  have hle : PLe ad' (ad'.close x) := ⟨Nat.le_refl _, Nat.le_refl _, Nat.le_refl _, fun _ h => h⟩
  exact ⟨h1.same hle rfl rfl (fun h4 h5 => h1.obj h4 h5) (fun _ h => .inl h), ⟨h2.nimp, h2.ntag, h2.ntok, h2.log⟩, ⟨h2.made hp.1, hle.wkOf (h2.wkOf hp.2)⟩, h3⟩

def pt (U : PApp α φ δ χ) (u0 : δ) (f0 : φ) : AT (poolApp U) { u := u0 } (.usr f0) where
  W _ ad _ a := lok ad a
  L _ ad a := lok ad a
  F _ ad t f := fok ad t f
  Q _ _ _ := True
  G _ _ _ _ := True
  I d ad := TyI d ad
  mono _ := ⟨id, id, id, id, id, id, id, id⟩
  wl _ h _ := h
  run {d ad a} h t := by cases a <;> first | trivial | exact h
  runR {d ad t p a} h := by cases a <;> first | trivial | exact h
  des {d ad a} h t := by cases a <;> first | trivial | exact h
  gset _ _ _ := trivial
  gdtor _ _ _ := trivial
  gpkg _ _ := trivial
  app := by
    intro s t ch g rest ad' sa hj he hst hi hp hs
    have key : NewOk s.data.sd s.data.ad ad' t sa := by
      cases pool_pc hs with
      | usr g ch u wa hU =>
        have hle : PLe s.data.ad { s.data.ad with u := u } := ⟨Nat.le_refl _, Nat.le_refl _, Nat.le_refl _, fun _ h => h⟩
        refine ⟨hi.same hle rfl rfl hi.obj (fun _ h => .inl h), hle, liftP_ok (fun _ _ => trivial) (fun _ _ => trivial) (fun _ => trivial) ?_
          (fun _ => trivial) _ _⟩
        intro t a; cases a <;> trivial
      | ck x d' id c hP => exact ty_ck hi hp hP
      | ps f d' a hf hb hP => exact ty_ps hi hp (fun a ha => (pk U u0 f0).sound hj hst he ha) hP
    exact ⟨key.1, ⟨key.2.1.lok, key.2.1.lok, key.2.1.fok, fun _ => trivial, fun _ => trivial, id, key.2.1.lok, key.2.1.lok⟩, key.2.2⟩
  sync {s t f rest d' a} hj hst hi hp hs := by
    have he := hs.ext
    refine ⟨hi.made, hi.fresh, hi.obj, hi.wk, ?_, hi.jobs⟩
    intro k x h
    obtain ⟨h1, h2, h3, h4⟩ := hi.pk h
    exact ⟨h1, lt_mono he h2, (he.home h2).trans h3, (he.owner h2).trans h4⟩
  throw := by
    intro s t g g' rest e hj hst he hp h
    rcases pool_throw h with ⟨g, g', rfl, rfl⟩ | ⟨i, l, c, K, rfl, rfl⟩ | ⟨i, o, K, rfl, rfl⟩ | ⟨i, o, l, K, rfl, rfl⟩
    · trivial
    all_goals exact hp.1

variable {U : PApp α φ δ χ} {u0 : δ} {f0 : φ} {s : PSt α φ δ}

theorem pt_ok (h : PR U u0 f0 s) : (pt U u0 f0).ty.Ok s :=
  (pt U u0 f0).sound ⟨by simp, fun _ _ => rfl, by simp, by simp, by simp, by simp⟩ trivial h

theorem tyI (h : PR U u0 f0 s) : TyI s.data.sd s.data.ad := (pt_ok h).data.i

theorem tyF (h : PR U u0 f0 s) {t : Nat} {f : PFrame α φ} (hm : .client (.app f) ∈ s.stk t) : fok s.data.ad t f := (pt_ok h).fr t _ hm

theorem ty_step (h : PR U u0 f0 s) {t : Nat} {ch : Ch (PCh χ)} {g : PFrame α φ} {rest : List (Fr (PTask α) (PFrame α φ))} {ad' : PData α δ}
    {sa : SAct (PTask α) (PFrame α φ)} (he : (s.thr t).exc = none) (hst : s.stk t = .client (.app g) :: rest)
    (hs : (poolApp U).step (s.view t) s.data.ad g (s.thr t).rv ch = some (ad', sa)) : PLe s.data.ad ad' := by
  cases pool_pc hs with
  | usr g ch u wa hU => exact ⟨Nat.le_refl _, Nat.le_refl _, Nat.le_refl _, fun _ h => h⟩
  | ck x d' id c hP => exact (ty_ck (φ := φ) (tyI h) (tyF h (t := t) (by rw [hst]; simp)) hP).2.1
  | ps f d' a hf hb hP => exact (ty_ps (tyI h) (tyF h (t := t) (by rw [hst]; simp)) (fun a ha => (pk U u0 f0).sound h hst he ha) hP).2.1

end
end Pool
end Itc
