import Verif.Fut.Model
import Verif.Sync.AHand
import Verif.Sync.ATy

/-!
# References to shared states held by objects (proof infrastructure, no claims)
-/
namespace Itc
namespace Fut
open Core Sync
section
variable {α φ δ χ : Type} {U : FApp α φ δ χ} {u0 : δ} {f0 : φ} {s s' : FSt α φ δ}

/-! ## Objects -/

theorem look_nil (x : Loc) : look [] x = none := rfl

theorem look_cons (e : Loc × FO) (l : List (Loc × FO)) (x : Loc) : look (e :: l) x = if e.1 = x then some e.2 else look l x := by
  unfold look
  by_cases h : e.1 = x
  · simp [h]
  · simp [List.find?, h]

theorem look_del (x y : Loc) (l : List (Loc × FO)) : look (del x l) y = if y = x then none else look l y := by
  induction l with
  | nil => simp [del, look_nil]
  | cons e l ih =>
    unfold del at ih ⊢
    by_cases h : e.1 = x
    · simp only [List.filter, h, ne_eq, not_true_eq_false, decide_false, ih, look_cons]
      by_cases hy : y = x
      · simp [hy]
      · simp [hy, Ne.symm hy]
    · simp only [List.filter, ne_eq, h, not_false_eq_true, decide_true, look_cons, ih]
      by_cases hy : y = x
      · subst hy; simp [h]
      · simp [hy]

theorem look_put (x y : Loc) (o : FO) (l : List (Loc × FO)) : look (put x o l) y = if y = x then some o else look l y := by
  unfold put
  rw [look_cons, look_del]
  by_cases h : y = x
  · simp [h]
  · simp [h, Ne.symm h]

theorem look_mem {l : List (Loc × FO)} {x : Loc} {o : FO} (h : look l x = some o) : (x, o) ∈ l := by
  induction l with
  | nil => simp [look_nil] at h
  | cons e l ih =>
    rw [look_cons] at h
    split at h
    · rename_i hx; obtain rfl := Option.some.inj h; subst hx; simp
    · exact List.mem_cons_of_mem _ (ih h)

theorem mem_del {l : List (Loc × FO)} {x : Loc} {e : Loc × FO} (h : e ∈ del x l) : e ∈ l := (List.mem_filter.1 h).1

theorem mem_put {l : List (Loc × FO)} {x : Loc} {o : FO} {e : Loc × FO} (h : e ∈ put x o l) : e = (x, o) ∨ e ∈ l := by
  rcases List.mem_cons.1 h with h | h
  · exact .inl h
  · exact .inr (mem_del h)

/-- 1 if the entry is a future that refers to `p`. -/
def uq (p : Nat) (e : Loc × FO) : Nat := if e.2.sh = false ∧ e.2.st = some p then 1 else 0

def ucnt (p : Nat) (l : List (Loc × FO)) : Nat := lsum (uq p) l

theorem del_cons (x : Loc) (e : Loc × FO) (l : List (Loc × FO)) : del x (e :: l) = if e.1 = x then del x l else e :: del x l := by
  unfold del
  rw [List.filter_cons]
  by_cases h : e.1 = x <;> simp [h]

theorem ucnt_del (p : Nat) (x : Loc) (l : List (Loc × FO)) : ucnt p (del x l) ≤ ucnt p l := by
  induction l with
  | nil => simp [del]
  | cons e l ih =>
    rw [del_cons]
    unfold ucnt at ih ⊢
    split <;> simp only [lsum_cons] <;> omega

theorem ucnt_look {p : Nat} {x : Loc} {o : FO} {l : List (Loc × FO)} (h : look l x = some o) : ucnt p (del x l) + uq p (x, o) ≤ ucnt p l := by
  induction l with
  | nil => simp [look_nil] at h
  | cons e l ih =>
    have h2 := ucnt_del p x l
    rw [look_cons] at h
    rw [del_cons]
    unfold ucnt at ih h2 ⊢
    by_cases hx : e.1 = x
    · rw [if_pos hx] at h
      obtain rfl := Option.some.inj h
      subst hx
      simp only [if_true, lsum_cons]
      have : uq p (e.1, e.2) = uq p e := rfl
      omega
    · rw [if_neg hx] at h
      have := ih h
      simp only [hx, if_false, lsum_cons]
      omega

theorem ucnt_put (p : Nat) (x : Loc) (o : FO) (l : List (Loc × FO)) : ucnt p (put x o l) = uq p (x, o) + ucnt p (del x l) := by
  simp [put, ucnt]

theorem ucnt_two {p : Nat} {x y : Loc} {l : List (Loc × FO)} (h1 : look l x = some ⟨false, some p⟩) (h2 : look l y = some ⟨false, some p⟩) (hne : x ≠ y) :
    2 ≤ ucnt p l := by
  have := ucnt_look (p := p) h1
  have h3 : look (del x l) y = some ⟨false, some p⟩ := by rw [look_del, if_neg (Ne.symm hne)]; exact h2
  have := ucnt_look (p := p) h3
  simp only [uq] at *
  simp at *
  omega

/-! ## Steps -/

/-- Steps of the application. -/
inductive FS (U : FApp α φ δ χ) (v : View) (d : FData α δ) (rv : Val) (ch : Ch χ) : FFrame α φ → FData α δ → SAct (FTask α) (FFrame α φ) → Prop
  | usr (f : φ) (u : δ) (a : FAct α φ) (h : U.step v d.u f rv ch = some (u, a)) : FS U v d rv ch (.usr f) { d with u := u } (liftF a)
  | halt (f : FFrame α φ) : FS U v d rv ch f d .terminate
  | new (y : Nat) (sh : Bool) (h : look d.objs (.usr y) = none) :
      FS U v d rv ch (.op (.new y sh)) { d with objs := put (.usr y) ⟨sh, none⟩ d.objs } (.ret .unit)
  | dtor (x : Loc) (o : FO) (h : look d.objs x = some o) : FS U v d rv ch (.op (.dtor x)) { d with objs := del x d.objs } (.ret .unit)
  | move (y : Nat) (x : Loc) (sh : Bool) (o : FO) (h : look d.objs x = some o) (h' : look d.objs (.usr y) = none) (hs : o.sh = true → sh = true) :
      FS U v d rv ch (.op (.move y x sh)) (d.pass v.tid (.usr y) sh x o) (.ret .unit)
  | copy (y : Nat) (x : Loc) (o : FO) (h : look d.objs x = some o) (h' : look d.objs (.usr y) = none) (hs : o.sh = true) :
      FS U v d rv ch (.op (.copy y x)) { d with objs := put (.usr y) o d.objs } (.ret .unit)
  | assign (y x : Loc) (o o' : FO) (h : look d.objs x = some o) (h' : look d.objs y = some o') (hne : x ≠ y) (hs : o.sh = true → o'.sh = true) :
      FS U v d rv ch (.op (.assign y x)) (d.pass v.tid y o'.sh x o) (.ret .unit)
  | self (x : Loc) (o : FO) (h : look d.objs x = some o) : FS U v d rv ch (.op (.assign x x)) d (.ret .unit)
  | copyAsg (y x : Loc) (o o' : FO) (h : look d.objs x = some o) (h' : look d.objs y = some o') (hs : o.sh = true) (hs' : o'.sh = true) :
      FS U v d rv ch (.op (.copyAsg y x)) { d with objs := put y o d.objs } (.ret .unit)
  | valid (x : Loc) (o : FO) (h : look d.objs x = some o) : FS U v d rv ch (.op (.valid x)) d (.ret (.bool o.st.isSome))
  | isReady (x : Loc) (o : FO) (h : look d.objs x = some o) : FS U v d rv ch (.op (.isReady x)) d (.sync (.isReady o.st) .fwd)
  | hasError (x : Loc) (o : FO) (h : look d.objs x = some o) : FS U v d rv ch (.op (.hasError x)) d (.sync (.hasError o.st) .fwd)
  | wait (x : Loc) (o : FO) (h : look d.objs x = some o) : FS U v d rv ch (.op (.wait x)) d (.sync (.futWait o.st) .fwd)
  | waitFor (x : Loc) (n : Int) (o : FO) (h : look d.objs x = some o) : FS U v d rv ch (.op (.waitFor x n)) d (.sync (.futWaitFor o.st n) .fwd)
  | get (x : Loc) (o : FO) (h : look d.objs x = some o) : FS U v d rv ch (.op (.get x)) d (.sync (.futWait o.st) (.gMv x o.st))
  | getFut (q y : Nat) : FS U v d rv ch (.op (.getFut q y)) d (.sync (.getFuture q) (.hRet y))
  | chainN (x : Loc) (id : Nat) (as b : Bool) (a : α) (y : Nat) (o : FO) (h : look d.objs x = some o) (hn : o.st = none) :
      FS U v d rv ch (.op (.chain x id as b a y)) d (.throw .noState)
  | chainU (x : Loc) (id : Nat) (as b : Bool) (a : α) (y p : Nat) (h : look d.objs x = some ⟨false, some p⟩) :
      FS U v d rv ch (.op (.chain x id as b a y)) { d with objs := put x ⟨false, none⟩ d.objs, flog := .chained v.tid x p false a :: d.flog }
        (.sync (.futThen (some p) id as b (.cont p false a)) (.hRet y))
  | chainS (x : Loc) (id : Nat) (as b : Bool) (a : α) (y p : Nat) (h : look d.objs x = some ⟨true, some p⟩) :
      FS U v d rv ch (.op (.chain x id as b a y)) { d with flog := .chained v.tid x p true a :: d.flog }
        (.sync (.futThen (some p) id as b (.cont p true a)) (.hRet y))
  | async (id : Nat) (as b : Bool) (a : α) (y : Nat) : FS U v d rv ch (.op (.async id as b a y)) d (.sync (.async id as b (.usr a)) (.hRet y))
  | fwd : FS U v d rv ch .fwd d (.ret rv)
  | gNull (x : Loc) (w : Option Nat) (h : ∀ o, look d.objs x = some o → o.st = none) :
      FS U v d rv ch (.gMv x w) { d with flog := .null v.tid x :: d.flog } .terminate
  | gOther (x : Loc) (w : Option Nat) : FS U v d rv ch (.gMv x w) { d with flog := .other v.tid x :: d.flog } .terminate
  | gTake (x : Loc) (p : Nat) (h : look d.objs x = some ⟨false, some p⟩) :
      FS U v d rv ch (.gMv x (some p)) { d with objs := put x ⟨false, none⟩ d.objs, flog := .took v.tid x p :: d.flog } (.sync (.futGet (some p)) (.gEnd x p))
  | gRead (x : Loc) (p : Nat) (h : look d.objs x = some ⟨true, some p⟩) : FS U v d rv ch (.gMv x (some p)) d (.sync (.futGet (some p)) (.gEnd x p))
  | gEnd (x : Loc) (p : Nat) : FS U v d rv ch (.gEnd x p) { d with flog := .got v.tid x p rv :: d.flog } (.ret rv)
  | hRet (y p : Nat) (hv : rv = .nat p) (h : look d.objs (.usr y) = none) :
      FS U v d rv ch (.hRet y) { d with objs := put (.usr y) ⟨false, some p⟩ d.objs, flog := .made v.tid (.usr y) p :: d.flog } (.ret .unit)
  | kIn (p : Nat) (sh : Bool) (a : α) : FS U v d rv ch (.kIn p sh a)
      { d with objs := put (.par d.npar) ⟨sh, some p⟩ d.objs, npar := d.npar + 1, flog := .param v.tid d.npar p sh a :: d.flog }
      (.push (.usr (U.cont a d.npar)) (.kRun d.npar))
  | kRun (n : Nat) : FS U v d rv ch (.kRun n) { d with objs := del (.par n) d.objs } (.ret rv)
  | kThr (n : Nat) (e : Exn) : FS U v d rv ch (.kThr n e) { d with objs := del (.par n) d.objs } (.throw e)

theorem fut_fs {v : View} {d d' : FData α δ} {rv : Val} {ch : Ch χ} {f : FFrame α φ} {a : SAct (FTask α) (FFrame α φ)}
    (h : (futApp U).step v d f rv ch = some (d', a)) : FS U v d rv ch f d' a := by
  by_cases hf : ∃ g, f = .usr g
  · obtain ⟨g, rfl⟩ := hf
    simp only [futApp] at h
    split at h
    · contradiction
    · simp only [Option.some.injEq, Prod.mk.injEq] at h
      obtain ⟨rfl, rfl⟩ := h
      exact .usr _ _ _ ‹_›
  · replace h : fstep U.cont v d rv f = (d', a) := by
      cases ch <;> cases f <;> simp [futApp] at h hf <;> exact h
    cases f with
    | usr g => exact absurd ⟨g, rfl⟩ hf
    | op r =>
      simp only [fstep] at h
      cases r with
      | new y sh =>
        simp only [opStep, FData.make] at h
        split at h <;> cases h <;> first | exact .halt _ | exact .new _ _ ‹_›
      | dtor x =>
        simp only [opStep] at h
        split at h <;> cases h <;> first | exact .halt _ | exact .dtor _ _ ‹_›
      | move y x sh =>
        simp only [opStep] at h
        split at h
        · rename_i o h1 h2
          split at h <;> cases h
          · exact .halt _
          · rename_i hc; refine .move _ _ _ _ h1 h2 ?_
            intro ho; simpa [ho] using hc
        · cases h; exact .halt _
      | copy y x =>
        simp only [opStep, FData.make] at h
        split at h
        · rename_i o h1
          split at h
          · rename_i hs
            split at h <;> cases h <;> first | exact .halt _ | exact .copy _ _ _ h1 ‹_› hs
          · cases h; exact .halt _
        · cases h; exact .halt _
      | assign y x =>
        simp only [opStep] at h
        split at h
        · rename_i o o' h1 h2
          split at h
          · cases h; exact .halt _
          · rename_i hc
            split at h
            · rename_i he; subst he; cases h; exact .self _ _ h1
            · rename_i hne; cases h
              refine .assign _ _ _ _ h1 h2 hne ?_
              intro ho; simpa [ho] using hc
        · cases h; exact .halt _
      | copyAsg y x =>
        simp only [opStep] at h
        split at h
        · rename_i o o' h1 h2
          split at h
          · rename_i hc; simp at hc; cases h; exact .copyAsg _ _ _ _ h1 h2 hc.1 hc.2
          · cases h; exact .halt _
        · cases h; exact .halt _
      | valid x => simp only [opStep] at h; split at h <;> cases h <;> first | exact .halt _ | exact .valid _ _ ‹_›
      | isReady x => simp only [opStep, FData.use] at h; split at h <;> cases h <;> first | exact .halt _ | exact .isReady _ _ ‹_›
      | hasError x => simp only [opStep, FData.use] at h; split at h <;> cases h <;> first | exact .halt _ | exact .hasError _ _ ‹_›
      | wait x => simp only [opStep, FData.use] at h; split at h <;> cases h <;> first | exact .halt _ | exact .wait _ _ ‹_›
      | waitFor x n => simp only [opStep, FData.use] at h; split at h <;> cases h <;> first | exact .halt _ | exact .waitFor _ _ _ ‹_›
      | get x => simp only [opStep, FData.use] at h; split at h <;> cases h <;> first | exact .halt _ | exact .get _ _ ‹_›
      | getFut q y => cases h; exact .getFut _ _
      | chain x id as b a' y =>
        simp only [opStep] at h
        split at h
        · cases h; exact .halt _
        · rename_i o ho
          obtain ⟨sh, st⟩ := o
          cases st <;> simp only at h
          · cases h; exact .chainN _ _ _ _ _ _ _ ho rfl
          · cases sh <;> cases h
            · exact .chainU _ _ _ _ _ _ _ ho
            · exact .chainS _ _ _ _ _ _ _ ho
      | async id as b a' y => cases h; exact .async _ _ _ _ _
    | fwd => cases h; exact .fwd
    | gMv x w =>
      simp only [fstep] at h
      split at h
      · rename_i hn; cases h; exact .gNull _ _ (by rw [hn]; simp)
      · rename_i o ho
        obtain ⟨sh, st⟩ := o
        cases st <;> simp only at h
        · cases h; exact .gNull _ _ (by rw [ho]; simp)
        · split at h
          · cases h; exact .gOther _ _
          · rename_i hw
            simp only [ne_eq, Decidable.not_not] at hw
            subst hw
            cases sh <;> cases h
            · exact .gTake _ _ ho
            · exact .gRead _ _ ho
    | gEnd x p => cases h; exact .gEnd _ _
    | hRet y =>
      simp only [fstep] at h
      split at h
      · split at h <;> cases h
        · exact .halt _
        · exact .hRet _ _ rfl ‹_›
      · cases h; exact .halt _
    | kIn p sh a' => cases h; exact .kIn _ _ _
    | kRun n => cases h; exact .kRun _
    | kThr n e => cases h; exact .kThr _ _

/-- The frames that actions leave. -/
def aOk : SAct (FTask α) (FFrame α φ) → Prop
  | .goto g => ∃ x, g = .usr x
  | .push g k => ((∃ r, g = .op r) ∧ ∃ x, k = .usr x) ∨ ((∃ x, g = .usr x) ∧ ((∃ y, k = .usr y) ∨ ∃ n, k = .kRun n))
  | .core a k => ∃ a' k', a = mapF a' ∧ k = .usr k'
  | .sync a k => (∃ a' k', mapS a' = some a ∧ k = .usr k') ∨ k = .fwd ∨ (∃ x o, k = .gMv x o) ∨ (∃ x p, k = .gEnd x p) ∨ (∃ y, k = .hRet y ∧ a.gives)
  | _ => True

theorem FS.aOk {v : View} {d d' : FData α δ} {rv : Val} {ch : Ch χ} {f : FFrame α φ} {a : SAct (FTask α) (FFrame α φ)} (h : FS U v d rv ch f d' a) : aOk a := by
  cases h
  case usr f u a h =>
    cases a with
    | act a =>
      cases a <;> simp only [liftF]
      · exact ⟨_, rfl⟩
      · exact .inr ⟨⟨_, rfl⟩, .inl ⟨_, rfl⟩⟩
      · exact ⟨_, _, rfl, rfl⟩
      · split
        · exact .inl ⟨_, _, ‹_›, rfl⟩
        · trivial
      all_goals trivial
    | fut r k => exact .inl ⟨⟨_, rfl⟩, ⟨_, rfl⟩⟩
  all_goals first
    | trivial
    | exact .inr (.inl rfl)
    | exact .inr (.inr (.inl ⟨_, _, rfl⟩))
    | exact .inr (.inr (.inr (.inl ⟨_, _, rfl⟩)))
    | exact .inr (.inr (.inr (.inr ⟨_, rfl, trivial⟩)))
    | exact .inr ⟨⟨_, rfl⟩, .inr ⟨_, rfl⟩⟩

/-! ## Accounting -/

def tw (p : Nat) : FTask α → Nat
  | .cont q false _ => b1 q p
  | _ => 0

/-- References to `p` that futures have given up for good. -/
def spent (p : Nat) : FEv α → Nat
  | .took _ _ q => b1 q p
  | .shared _ _ q => b1 q p
  | _ => 0

/-- References to `p` that calls have returned. -/
def given (p : Nat) : FEv α → Nat
  | .made _ _ q => b1 q p
  | _ => 0

def fg (p : Nat) : FFrame α φ → Nat
  | .kIn q sh a => tw p (.cont q sh a : FTask α)
  | _ => 0

def aw (p : Nat) : AW (FTask α) (FFrame α φ) (FData α δ) where
  o := 0
  u := 1
  ou := rfl
  w := tw p
  g := fg p
  out d := ucnt p d.objs + lsum (spent p) d.flog
  inn d := lsum (given p) d.flog

theorem mapS_w {a : SApi α} {b : SApi (FTask α)} (h : mapS a = some b) (p : Nat) : (aw (φ := φ) (δ := δ) p).sapi b = 0 := by
  cases a <;> simp [mapS] at h <;> subst h <;> rfl

theorem uq_le (p : Nat) (e : Loc × FO) : uq p e ≤ 1 := by unfold uq; split <;> omega

theorem pass_acc {d : FData α δ} {t : Nat} {y x : Loc} {sh : Bool} {o : FO} (h : look d.objs x = some o) (hne : y ≠ x) (hs : o.sh = true → sh = true) (p : Nat) :
    ucnt p (d.pass t y sh x o).objs + lsum (spent p) (d.pass t y sh x o).flog ≤ ucnt p d.objs + lsum (spent p) d.flog ∧
      lsum (given p) (d.pass t y sh x o).flog = lsum (given p) d.flog := by
  have h1 := ucnt_look (p := p) h
  have h2 := ucnt_del p y (put x ⟨o.sh, none⟩ d.objs)
  rw [ucnt_put] at h2
  obtain ⟨osh, st⟩ := o
  unfold FData.pass
  have h3 : uq p (x, ⟨osh, none⟩) = 0 := by simp [uq]
  cases st with
  | none =>
    have h4 : uq p (y, ⟨sh, none⟩) = 0 := by simp [uq]
    simp only [ucnt_put]
    simp only at h2
    refine ⟨by omega, trivial⟩
  | some q =>
    simp only
    cases sh <;> cases osh <;> simp only [Bool.not_false, Bool.not_true, Bool.and_true, Bool.and_false, Bool.false_and, Bool.true_and, Bool.false_eq_true, if_false, if_true] at h1 h2 ⊢
    · have : uq p (y, ⟨false, some q⟩) = uq p (x, ⟨false, some q⟩) := rfl
      simp only [ucnt_put]
      exact ⟨by omega, trivial⟩
    · exact absurd (hs rfl) (by simp)
    · have h5 : uq p (y, ⟨true, some q⟩) = 0 := by simp [uq]
      have h6 : uq p (x, ⟨false, some q⟩) = b1 q p := by simp [uq, b1]
      simp only [FData.ev, ucnt_put, lsum_cons, spent, given]
      exact ⟨by omega, by omega⟩
    · have h5 : uq p (y, ⟨true, some q⟩) = 0 := by simp [uq]
      simp only [ucnt_put]
      exact ⟨by omega, trivial⟩

theorem FS.acc {v : View} {d d' : FData α δ} {rv : Val} {ch : Ch χ} {f : FFrame α φ} {a : SAct (FTask α) (FFrame α φ)} (h : FS U v d rv ch f d' a) (p : Nat) :
    (aw (δ := δ) p).sa f a + (ucnt p d'.objs + lsum (spent p) d'.flog) + lsum (given p) d.flog ≤
      fg p f + (ucnt p d.objs + lsum (spent p) d.flog) + lsum (given p) d'.flog := by
  have hm : ∀ {a : SApi α} {b : SApi (FTask α)}, mapS a = some b → (aw (φ := φ) (δ := δ) p).sapi b = 0 := fun h => mapS_w h p
  have hg : (aw (α := α) (φ := φ) (δ := δ) p).g = fg p := rfl
  have hd := fun x => ucnt_del p x d.objs
  cases h
  case usr f u a h =>
    cases a with
    | act a =>
      cases a <;> simp only [liftF, AW.sa, hg, fg] <;> try omega
      · rename_i a k
        have : (aw (φ := φ) (δ := δ) p).api (mapF a) = 0 := by cases a <;> rfl
        omega
      · rename_i a k
        cases h : mapS a <;> simp only [AW.sa, hg, fg]
        · omega
        · rw [hm h]; omega
    | fut r k => simp only [liftF, AW.sa, hg, fg]; omega
  case move y x sh o h h' hs =>
    have := pass_acc (t := v.tid) h (y := .usr y) (by rintro rfl; rw [h] at h'; cases h') hs p
    simp only [AW.sa, fg]; omega
  case assign y x o o' h h' hne hs =>
    have := pass_acc (t := v.tid) h (y := y) (Ne.symm hne) hs p
    simp only [AW.sa, fg]; omega
  case new y sh h =>
    have := hd (.usr y)
    have h2 : uq p (.usr y, ⟨sh, none⟩) = 0 := by simp [uq]
    simp only [AW.sa, fg, ucnt_put]; omega
  case dtor x o h => have := hd x; simp only [AW.sa, fg]; omega
  case copy y x o h h' hs =>
    have := hd (.usr y)
    have h2 : uq p (.usr y, o) = 0 := by simp [uq, hs]
    simp only [AW.sa, fg, ucnt_put]; omega
  case copyAsg y x o o' h h' hs hs' =>
    have := hd y
    have h2 : uq p (y, o) = 0 := by simp [uq, hs]
    simp only [AW.sa, fg, ucnt_put]; omega
  case chainU x id as b a y q h =>
    have h1 := ucnt_look (p := p) h
    have h2 : uq p (x, ⟨false, none⟩) = 0 := by simp [uq]
    have h3 : uq p (x, ⟨false, some q⟩) = b1 q p := by simp [uq, b1]
    simp only [AW.sa, AW.sapi, aw, tw, fg, ucnt_put, lsum_cons, spent, given]; omega
  case chainS x id as b a y q h => simp only [AW.sa, AW.sapi, aw, tw, fg, lsum_cons, spent, given]; omega
  case gTake x q h =>
    have h1 := ucnt_look (p := p) h
    have h2 : uq p (x, ⟨false, none⟩) = 0 := by simp [uq]
    have h3 : uq p (x, ⟨false, some q⟩) = b1 q p := by simp [uq, b1]
    simp only [AW.sa, AW.sapi, aw, fg, ucnt_put, lsum_cons, spent, given]; omega
  case hRet y q hv h =>
    have := hd (.usr y)
    have h3 : uq p (.usr y, ⟨false, some q⟩) = b1 q p := by simp [uq, b1]
    simp only [AW.sa, fg, ucnt_put, lsum_cons, spent, given]; omega
  case kIn q sh a =>
    have := hd (.par d.npar)
    have h3 : uq p (.par d.npar, ⟨sh, some q⟩) = tw p (.cont q sh a : FTask α) := by cases sh <;> simp [uq, b1, tw]
    simp only [AW.sa, hg, fg, ucnt_put, lsum_cons, spent, given]; omega
  case kRun n => have := hd (.par n); simp only [AW.sa, fg]; omega
  case kThr n e => have := hd (.par n); simp only [AW.sa, fg]; omega
  all_goals (simp only [AW.sa, AW.sapi, aw, tw, fg, lsum_cons, spent, given]; omega)

theorem usr_map (a : Api α φ) : ApiOK (fun _ g => ∃ x, g = .usr x) (fun _ => True) (mapF a) := by
  cases a <;> simp [mapF, ApiOK]

def al (U : FApp α φ δ χ) (u0 : δ) (f0 : φ) (p : Nat) : AL (futApp U) { u := u0 } (.usr f0) where
  toAW := aw p
  z f := ∃ x, f = .usr x
  z_g := by rintro _ ⟨x, rfl⟩; rfl
  z_0 := ⟨_, rfl⟩
  z_step := by
    rintro v ad _ rv ch ad' sa k h ⟨x, rfl⟩ hk
    cases fut_fs h
    case usr u a h =>
      cases a with
      | act a =>
        cases a <;> simp only [liftF] at hk <;> (try split at hk) <;> simp [SAct.cont] at hk <;> exact ⟨_, hk.symm⟩
      | fut r k => simp [liftF, SAct.cont] at hk; exact ⟨_, hk.symm⟩
    case halt => simp [SAct.cont] at hk
  z_throw := by
    rintro _ e f' h ⟨x, rfl⟩
    simp only [futApp, Option.map_eq_some_iff] at h
    obtain ⟨g, -, rfl⟩ := h
    exact ⟨_, rfl⟩
  z_code := by
    intro v ad f rv ch ad' a k h
    obtain ⟨a', k', rfl, rfl⟩ := (fut_fs h).aOk
    exact usr_map a'
  run a := by cases a <;> simp [futApp, aw, fg, tw]
  destroy a := by cases a <;> simp [futApp, aw, fg]
  throw := by
    intro f e f' h
    cases f <;> simp only [futApp, Option.map_eq_some_iff, Option.some.injEq, reduceCtorEq] at h
    · obtain ⟨g, -, rfl⟩ := h; simp [aw, fg]
    · subst h; simp [aw, fg]
  app _ _ _ h := (fut_fs h).acc p

def isRet : FFrame α φ → Bool
  | .hRet _ => true
  | _ => false

def ah (U : FApp α φ δ χ) (u0 : δ) (f0 : φ) : AGv (futApp U) { u := u0 } (.usr f0) where
  R := isRet
  cnt d p := lsum (given p) d.flog
  c0 _ := rfl
  r0 := rfl
  run a := by cases a <;> exact ⟨rfl, rfl⟩
  throw := by
    intro f e f' h
    cases f <;> simp only [futApp, Option.map_eq_some_iff, Option.some.injEq, reduceCtorEq] at h
    · obtain ⟨g, -, rfl⟩ := h; rfl
    · subst h; rfl
  code := by
    intro v ad f rv ch ad' a k h
    obtain ⟨a', k', rfl, rfl⟩ := (fut_fs h).aOk
    cases a' <;> simp [mapF, ApiOK, isRet]
  goto := by
    intro v ad f rv ch ad' g h
    obtain ⟨x, rfl⟩ := (fut_fs h).aOk
    rfl
  push := by
    intro v ad f rv ch ad' g k h
    rcases (fut_fs h).aOk with ⟨⟨r, rfl⟩, ⟨x, rfl⟩⟩ | ⟨⟨x, rfl⟩, ⟨y, rfl⟩ | ⟨n, rfl⟩⟩ <;> exact ⟨rfl, rfl⟩
  core := by
    intro v ad f rv ch ad' a k h
    obtain ⟨a', k', rfl, rfl⟩ := (fut_fs h).aOk
    rfl
  sync := by
    intro v ad f rv ch ad' a k h hk
    rcases (fut_fs h).aOk with ⟨a', k', -, rfl⟩ | rfl | ⟨x, o, rfl⟩ | ⟨x, p, rfl⟩ | ⟨y, rfl, hg⟩
    · cases hk
    · cases hk
    · cases hk
    · cases hk
    · exact hg
  app := by
    intro v ad f rv ch ad' sa h p
    replace h := fut_fs h
    cases h
    case hRet y q hv h => subst hv; simp [given, isRet, b1]; omega
    case move y x sh o h h' hs => exact Nat.le_add_right_of_le (Nat.le_of_eq (pass_acc h (y := .usr y) (by rintro rfl; rw [h] at h'; cases h') hs p).2)
    case assign y x o o' h h' hne hs => exact Nat.le_add_right_of_le (Nat.le_of_eq (pass_acc h (Ne.symm hne) hs p).2)
    all_goals simp [given]
  halt := by
    intro v ad f rv ch ad' h p
    replace h := fut_fs h
    generalize hx : SAct.terminate = x at h
    cases h
    case hRet y q hv h => cases hx
    case move y x sh o h h' hs => cases hx
    case assign y x o o' h h' hne hs => cases hx
    all_goals simp [given]

/-- What the accounting says about the objects and events. -/
theorem refs (hr : FR U u0 f0 s) (p : Nat) : ucnt p s.data.ad.objs + lsum (spent p) s.data.ad.flog ≤ lsum (given p) s.data.ad.flog ∧
    lsum (given p) s.data.ad.flog ≤ if (s.data.sd.st p).retrieved then 1 else 0 := by
  refine ⟨?_, (ah U u0 f0).ok hr p⟩
  obtain ⟨N, -, h⟩ := (al U u0 f0 p).ok (by simp [al, aw, ucnt]) hr
  have h := rel_le.1 h
  have e1 : (al U u0 f0 p).lin.out s.data = (aw (φ := φ) (δ := δ) p).CB s.data.sd.nst s.data.sd.st + lsum (aw (α := α) (φ := φ) (δ := δ) p).ev s.data.sd.slog +
    (ucnt p s.data.ad.objs + lsum (spent p) s.data.ad.flog) := rfl
  have e2 : (al U u0 f0 p).lin.inn s.data = lsum (given p) s.data.ad.flog := rfl
  rw [e1, e2] at h
  omega

/-! ## What is known about shared_futures and continuations -/

theorem FS.grow {v : View} {d d' : FData α δ} {rv : Val} {ch : Ch χ} {f : FFrame α φ} {a : SAct (FTask α) (FFrame α φ)} (h : FS U v d rv ch f d' a) :
    ∃ es, d'.flog = es ++ d.flog := by
  have hp : ∀ (d : FData α δ) t y sh x o, ∃ es, (d.pass t y sh x o).flog = es ++ d.flog := by
    intro d t y sh x o
    unfold FData.pass
    split
    · split
      · exact ⟨[_], rfl⟩
      · exact ⟨[], rfl⟩
    · exact ⟨[], rfl⟩
  cases h <;> first | exact ⟨[], rfl⟩ | exact ⟨[_], rfl⟩ | exact hp ..

def ShEv (d : FData α δ) (p : Nat) : Prop := ∃ t y, FEv.shared t y p ∈ d.flog
def ChEv (d : FData α δ) (p : Nat) (sh : Bool) (a : α) : Prop := ∃ t x, FEv.chained t x p sh a ∈ d.flog

def taskW (d : FData α δ) (q : Nat) : FTask α → Prop
  | .cont p sh a => p = q ∧ (sh = true → ShEv d p) ∧ ChEv d p sh a
  | _ => True

def taskL (sd : SData (FTask α)) (d : FData α δ) : FTask α → Prop
  | .cont p sh a => rdy sd p ∧ (sh = true → ShEv d p) ∧ ChEv d p sh a
  | _ => True

def frF (sd : SData (FTask α)) (d : FData α δ) : FFrame α φ → Prop
  | .kIn p sh a => rdy sd p ∧ (sh = true → ShEv d p) ∧ ChEv d p sh a
  | _ => True

structure Inv (sd : SData (FTask α)) (d : FData α δ) : Prop where
  shd : ∀ e ∈ d.objs, e.2.sh = true → ∀ p, e.2.st = some p → ShEv d p
  par : ∀ t n p sh a, FEv.param t n p sh a ∈ d.flog → rdy sd p ∧ ChEv d p sh a
  fresh : ∀ e ∈ d.objs, ∀ n, e.1 = .par n → n < d.npar

theorem taskW_mono {d d' : FData α δ} (h : ∃ es, d'.flog = es ++ d.flog) {q : Nat} {a : FTask α} (ha : taskW d q a) : taskW d' q a := by
  obtain ⟨es, h⟩ := h
  cases a with
  | usr a => trivial
  | cont p sh a =>
    obtain ⟨h1, h2, t, x, h3⟩ := ha
    refine ⟨h1, fun hs => ?_, t, x, by rw [h]; simp [h3]⟩
    obtain ⟨t, y, h4⟩ := h2 hs
    exact ⟨t, y, by rw [h]; simp [h4]⟩

theorem taskL_mono {sd sd' : SData (FTask α)} {d d' : FData α δ} (hs : Ext sd sd') (h : ∃ es, d'.flog = es ++ d.flog) {a : FTask α} (ha : taskL sd d a) : taskL sd' d' a := by
  cases a with
  | usr a => trivial
  | cont p sh a =>
    have := taskW_mono h (q := p) (a := .cont p sh a) ⟨rfl, ha.2⟩
    exact ⟨rdy_mono hs ha.1, this.2⟩

theorem frF_mono {sd sd' : SData (FTask α)} {d d' : FData α δ} (hs : Ext sd sd') (h : ∃ es, d'.flog = es ++ d.flog) {f : FFrame α φ} (ha : frF sd d f) : frF sd' d' f := by
  cases f <;> first | trivial | skip
  rename_i p sh a
  exact taskL_mono hs h (a := .cont p sh a) ha

theorem Inv.step {v : View} {sd : SData (FTask α)} {d d' : FData α δ} {rv : Val} {ch : Ch χ} {f : FFrame α φ} {a : SAct (FTask α) (FFrame α φ)}
    (hi : Inv sd d) (hf : frF sd d f) (h : FS U v d rv ch f d' a) : Inv sd d' := by
  have hg := h.grow
  have hm : ∀ {p}, ShEv d p → ShEv d' p := by
    rintro p ⟨t, y, h⟩
    obtain ⟨es, hg⟩ := hg
    exact ⟨t, y, by rw [hg]; simp [h]⟩
  have hc : ∀ {p sh a}, ChEv d p sh a → ChEv d' p sh a := by
    rintro p sh a ⟨t, y, h⟩
    obtain ⟨es, hg⟩ := hg
    exact ⟨t, y, by rw [hg]; simp [h]⟩
  /- what a step that adds the entries `new` and removes others has to show -/
  have key : ∀ (new : List (Loc × FO)), (∀ e ∈ d'.objs, e ∈ new ∨ e ∈ d.objs) → (∀ e ∈ new, e.2.sh = true → ∀ p, e.2.st = some p → ShEv d' p) →
      (∀ e ∈ new, ∀ n, e.1 = .par n → n < d'.npar) → d.npar ≤ d'.npar → (∀ t n p sh a, FEv.param t n p sh a ∈ d'.flog → FEv.param t n p sh a ∈ d.flog ∨ (rdy sd p ∧ ChEv d' p sh a)) →
      Inv sd d' := by
    intro new h1 h2 h3 h4 h5
    refine ⟨?_, ?_, ?_⟩
    · intro e he hs p hp
      rcases h1 e he with h | h
      · exact h2 e h hs p hp
      · exact hm (hi.shd e h hs p hp)
    · intro t n p sh a he
      rcases h5 t n p sh a he with h | h
      · have := hi.par t n p sh a h; exact ⟨this.1, hc this.2⟩
      · exact h
    · intro e he n hn
      rcases h1 e he with h | h
      · exact h3 e h n hn
      · have := hi.fresh e h n hn; omega
  have hlk : ∀ {x : Loc} {o : FO} {n : Nat}, look d.objs x = some o → x = .par n → n < d.npar := fun h hx => hi.fresh _ (look_mem h) _ hx
  have hpass : ∀ {t y sh x o}, look d.objs x = some o → (o.sh = true → sh = true) → (∀ n, y = .par n → n < d.npar) → d' = d.pass t y sh x o → Inv sd d' := by
    intro t y sh x o hx hs hy hd
    have hobj : d'.objs = put y ⟨sh, o.st⟩ (put x ⟨o.sh, none⟩ d.objs) := by
      subst hd; unfold FData.pass; split <;> (try split) <;> rfl
    have hnp : d'.npar = d.npar := by
      subst hd; unfold FData.pass; split <;> (try split) <;> rfl
    have hsh : sh = true → ∀ p, o.st = some p → ShEv d' p := by
      intro h1 p hp
      by_cases ho : o.sh = true
      · exact hm (hi.shd _ (look_mem hx) ho p hp)
      · refine ⟨t, x, ?_⟩
        subst hd
        unfold FData.pass
        simp [hp, h1, ho, FData.ev]
    refine key [(y, ⟨sh, o.st⟩), (x, ⟨o.sh, none⟩)] ?_ ?_ ?_ (by omega) ?_
    · intro e he
      rw [hobj] at he
      rcases mem_put he with h | h
      · exact .inl (by simp [h])
      · rcases mem_put h with h | h
        · exact .inl (by simp [h])
        · exact .inr h
    · intro e he h1 p hp
      simp at he
      rcases he with rfl | rfl
      · exact hsh h1 p hp
      · cases hp
    · intro e he n hn
      simp at he
      rw [hnp]
      rcases he with rfl | rfl
      · exact hy n hn
      · exact hlk hx hn
    · intro t' n p sh' a he
      refine .inl ?_
      subst hd
      unfold FData.pass at he
      split at he
      · split at he
        · simpa [FData.ev] using he
        · exact he
      · exact he
  cases h
  case move y x sh o h h' hs => exact hpass h hs (by simp) rfl
  case assign y x o o' h h' hne hs => exact hpass h hs (fun n hn => hlk h' hn) rfl
  case new y sh h => exact key [(.usr y, ⟨sh, none⟩)] (fun e he => by simpa using mem_put he) (by simp) (by simp) (Nat.le_refl _) (fun _ _ _ _ _ h => .inl h)
  case dtor x o h => exact key [] (fun e he => .inr (mem_del he)) (by simp) (by simp) (Nat.le_refl _) (fun _ _ _ _ _ h => .inl h)
  case copy y x o h h' hs =>
    refine key [(.usr y, o)] (fun e he => by simpa using mem_put he) ?_ (by simp) (Nat.le_refl _) (fun _ _ _ _ _ h => .inl h)
    intro e he h1 p hp
    simp at he; subst he
    exact hm (hi.shd _ (look_mem h) hs p hp)
  case copyAsg y x o o' h h' hs hs' =>
    refine key [(y, o)] (fun e he => by simpa using mem_put he) ?_ ?_ (Nat.le_refl _) (fun _ _ _ _ _ h => .inl h)
    · intro e he h1 p hp
      simp at he; subst he
      exact hm (hi.shd _ (look_mem h) hs p hp)
    · intro e he n hn
      simp at he; subst he
      exact hlk h' hn
  case chainU x id as b a y p h =>
    refine key [(x, ⟨false, none⟩)] (fun e he => by simpa using mem_put he) (by simp) ?_ (Nat.le_refl _) (fun _ _ _ _ _ h => .inl (by simpa using h))
    intro e he n hn
    simp at he; subst he
    exact hlk h hn
  case gTake x p h =>
    refine key [(x, ⟨false, none⟩)] (fun e he => by simpa using mem_put he) (by simp) ?_ (Nat.le_refl _) (fun _ _ _ _ _ h => .inl (by simpa using h))
    intro e he n hn
    simp at he; subst he
    exact hlk h hn
  case hRet y p hv h =>
    exact key [(.usr y, ⟨false, some p⟩)] (fun e he => by simpa using mem_put he) (by simp) (by simp) (Nat.le_refl _) (fun _ _ _ _ _ h => .inl (by simpa using h))
  case kIn p sh a =>
    refine key [(.par d.npar, ⟨sh, some p⟩)] (fun e he => by simpa using mem_put he) ?_ ?_ (by simp) ?_
    · intro e he h1 q hq
      simp at he; subst he
      cases hq
      exact hm (hf.2.1 h1)
    · intro e he n hn
      simp at he; subst he
      cases hn; simp
    · intro t n q sh' a' he
      simp at he
      rcases he with ⟨-, -, rfl, rfl, rfl⟩ | he
      · exact .inr ⟨hf.1, hc hf.2.2⟩
      · exact .inl he
  case kRun n => exact key [] (fun e he => .inr (mem_del he)) (by simp) (by simp) (Nat.le_refl _) (fun _ _ _ _ _ h => .inl h)
  case kThr n e => exact key [] (fun e he => .inr (mem_del he)) (by simp) (by simp) (Nat.le_refl _) (fun _ _ _ _ _ h => .inl h)
  all_goals exact key [] (fun e he => .inr he) (by simp) (by simp) (Nat.le_refl _) (fun _ _ _ _ _ h => .inl (by simpa using h))

def ap (α φ δ : Type) : AP (FTask α) (FFrame α φ) (FData α δ) where
  W _ d q a := taskW d q a
  L sd d a := taskL sd d a
  F sd d _ f := frF sd d f
  Q _ _ _ := True
  G _ _ _ _ := True

theorem ap_le {sd sd' : SData (FTask α)} {d d' : FData α δ} (hs : Ext sd sd') (h : ∃ es, d'.flog = es ++ d.flog) : (ap α φ δ).Le sd d sd' d' where
  W := taskW_mono h
  L := taskL_mono hs h
  F := frF_mono hs h
  Q := id
  G := id
  X := id
  R := taskL_mono hs h
  D := taskL_mono hs h

def aty (U : FApp α φ δ χ) (u0 : δ) (f0 : φ) : AT (futApp U) { u := u0 } (.usr f0) where
  toAP := ap α φ δ
  I := Inv
  mono h := ap_le h ⟨[], rfl⟩
  wl := by
    intro d ad q a _ h hr
    cases a with
    | usr a => trivial
    | cont p sh a => obtain ⟨rfl, h⟩ := h; exact ⟨hr, h⟩
  run := by intro d ad a h t; cases a with
    | usr a => trivial
    | cont p sh a => exact h
  runR := by intro d ad t p a h; cases a with
    | usr a => trivial
    | cont p sh a => exact h
  des := by intro d ad a h t; cases a <;> trivial
  gset _ _ _ := trivial
  gdtor _ _ _ := trivial
  gpkg _ _ := trivial
  app := by
    intro s t ch g rest ad' sa hr he hst hi hf hs
    have h := fut_fs hs
    refine ⟨hi.step hf h, ap_le (.refl _) h.grow, ?_⟩
    clear hs
    cases h
    case usr f u a h =>
      cases a with
      | act a =>
        cases a <;> simp only [liftF] <;> first | trivial | exact ⟨trivial, trivial⟩ | skip
        · rename_i a k
          refine ⟨trivial, ?_⟩
          cases a <;> simp [mapF, ApiOK, ap, taskL, frF]
        · rename_i a k
          cases h : mapS a with
          | none => trivial
          | some b => refine ⟨trivial, ?_⟩; cases a <;> simp [mapS] at h <;> subst h <;> trivial
      | fut r k => exact ⟨trivial, trivial⟩
    case chainU x id as b a y p h => exact ⟨trivial, rfl, by simp, _, _, List.mem_cons_self ..⟩
    case chainS x id as b a y p h =>
      refine ⟨trivial, rfl, fun _ => ?_, _, _, List.mem_cons_self ..⟩
      obtain ⟨t, y, h⟩ := hi.shd _ (look_mem h) rfl p rfl
      exact ⟨t, y, by simp [h]⟩
    all_goals first | trivial | exact ⟨trivial, trivial⟩
  sync := by
    intro s t f rest d' a hr hst hi hf hS
    have := hS.ext
    exact ⟨hi.shd, fun t n p sh a h => ⟨rdy_mono this (hi.par t n p sh a h).1, (hi.par t n p sh a h).2⟩, hi.fresh⟩
  throw := by
    intro s t g g' rest e hr hst he hf hg
    cases g <;> simp only [futApp, Option.map_eq_some_iff, Option.some.injEq, reduceCtorEq] at hg
    · obtain ⟨g, -, rfl⟩ := hg; trivial
    · subst hg; trivial

theorem inv (hr : FR U u0 f0 s) : Inv s.data.sd s.data.ad :=
  ((aty U u0 f0).sound ⟨by simp, by simp, by simp⟩ trivial hr).1.i

end
end Fut
end Itc
