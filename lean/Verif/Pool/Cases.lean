import Verif.Pool.Model

/-!
# Case table of the thread pool (proof infrastructure, no claims)
-/
namespace Itc
namespace Pool
open Core Sync
section
variable {α φ δ χ : Type}

/-- The data after `addHandle`. -/
def addH (d : PData α δ) (i : Nat) (h : Hd) : PData α δ :=
  { d.upd i { d.imp i with q := (d.imp i).q ++ [h] } with
    ntok := d.ntok + (mkToks i h.g.lvl d.ntok (d.imp i).wk).length, opn := d.opn ++ mkToks i h.g.lvl d.ntok (d.imp i).wk }

/-- The data after the insertion of a job, before its handle is queued. -/
def insJob (t : Nat) (d : PData α δ) (i : Nat) (g : Grp) (c : Call α) : PData α δ :=
  (d.upd i { d.imp i with free := (d.imp i).free + 1, jobs := (d.imp i).jobs ++ [⟨(d.imp i).free, g, some c, c.p, c.u⟩] }).ev
    (.sched t i (d.imp i).free c g)

/-- The data after the change of a group, before the new handle is queued. -/
def chgJob (t : Nat) (d : PData α δ) (i id : Nat) (g : Grp) : PData α δ :=
  (d.upd i { d.imp i with jobs := modJob (d.imp i).jobs id fun j => { j with g := g } }).ev (.changed t i id g)

def eraseJob (d : PData α δ) (i id : Nat) : PData α δ := d.upd i { d.imp i with jobs := erase (d.imp i).jobs id }

/-- Steps that change neither impls nor the ghost log nor notifications: objects and sentinels. -/
structure SameImp (d d' : PData α δ) : Prop where
  imp : d'.imp = d.imp
  nimp : d'.nimp = d.nimp
  ntag : d'.ntag = d.ntag
  ntok : d'.ntok = d.ntok
  opn : d'.opn = d.opn
  plog : d'.plog = d.plog
  u : d'.u = d.u

/-- The branches of `pstep`. -/
inductive PS (v : View) (d : PData α δ) (rv : Val) : PFrame α φ → PData α δ → SAct (PTask α) (PFrame α φ) → Prop
  | bad (f : PFrame α φ) : PS v d rv f d .terminate
  | newIn (h : Nat) (ws : List (Nat × Nat)) (hn : d.obj h = none) :
      PS v d rv (.newIn h ws) { d.upd d.nimp {} with nimp := d.nimp + 1 } (.goto (.newW d.nimp h ws))
  | newEnd (i h : Nat) :
      PS v d rv (.newW i h []) { d.ev (.made v.tid i) with obj := set d.obj h (some ⟨some i, some d.nsen⟩), live := set d.live d.nsen true, nsen := d.nsen + 1, sim := set d.sim d.nsen i }
        (.ret .unit)
  | newW (i h l n : Nat) (ws : List (Nat × Nat)) : PS v d rv (.newW i h ((l, n) :: ws)) d (.core (.spawn n .wkIn) (.newReg i h l n ws))
  | newReg (i h l n : Nat) (ws : List (Nat × Nat)) : PS v d rv (.newReg i h l n ws) d (.core (.registerNative n) (.newId i h l n ws))
  | newId (i h l n : Nat) (ws : List (Nat × Nat)) (id : Nat) (hv : rv = .nat id) :
      PS v d rv (.newId i h l n ws) ((d.upd i { d.imp i with wk := (d.imp i).wk ++ [⟨l, n, id⟩] }).ev (.worker v.tid i l n id)) (.goto (.newW i h ws))
  | wkIn : PS v d rv .wkIn d (.core .registerThis .wkLoop)
  | wkExit (hx : v.exit = true) : PS v d rv .wkLoop d (.core .unregisterThis .wkEnd)
  | wkWait (hx : v.exit = false) : PS v d rv .wkLoop d (.core .wait .wkLoop)
  | wkEnd : PS v d rv .wkEnd d (.ret .unit)
  | scIn (h : Nat) (g : Grp) (b : Bool) (a : α) :
      PS v d rv (.scIn h g b a) { d with ntag := d.ntag + 1 } (.sync (.package d.ntag b) (.scTask d.ntag b h g a))
  | scTask (k : Nat) (b : Bool) (h : Nat) (g : Grp) (a : α) (u i : Nat) (hv : rv = .nat u) (hi : d.deref h = some i) :
      PS v d rv (.scTask k b h g a) { d.ev (.packed k u) with ntag := d.ntag + 1 } (.sync (.package d.ntag true) (.scJob d.ntag i h g u a))
  | scJob (k i h : Nat) (g : Grp) (u : Nat) (a : α) (p : Nat) (hv : rv = .nat p) :
      PS v d rv (.scJob k i h g u a) (d.ev (.packed k p)) (.sync (.lock (gd i)) (.ajIn i h g ⟨p, u, a⟩))
  | ajIn (i h : Nat) (g : Grp) (c : Call α) :
      PS v d rv (.ajIn i h g c) (addH (insJob v.tid d i g c) i ⟨(d.imp i).free, g⟩)
        (.goto (.nw i (mkToks i g.lvl d.ntok (d.imp i).wk) none (.sched h c.u (d.imp i).free)))
  | nwEnd (i : Nat) (cur : Option Tok) (K : AK') : PS v d rv (.nw i [] cur K) d (.sync (.unlock (gd i)) (.nwFin i K))
  | nwGo (i : Nat) (x : Tok) (l : List Tok) (cur : Option Tok) (K : AK') :
      PS v d rv (.nw i (x :: l) cur K) d (.core (.dispatch x.w (.check x)) (.nw i l (some x) K))
  | finChg (i : Nat) : PS v d rv (.nwFin i .chg) d (.ret .unit)
  | finSched (i h u id x : Nat) : PS v d rv (.nwFin i (.sched h u id)) (d.ev (.returned v.tid i id u)) (.ret (.ids [u, id, x]))
  | nwThr (i : Nat) (e : Exn) : PS v d rv (.nwThr i e) (d.ev (.aborted i)) (.sync (.unlock (gd i)) (.thr e))
  | clThr (i : Nat) (e : Exn) : PS v d rv (.clThr i e) d (.sync (.unlock (gd i)) (.thr e))
  | thr (e : Exn) : PS v d rv (.thr e) d (.throw e)
  | cpIn (h id : Nat) (g : Grp) (i : Nat) (hi : d.deref h = some i) : PS v d rv (.cpIn h id g) d (.sync (.lock (gd i)) (.cpBody i id g))
  | cpNo (i id : Nat) (g : Grp) (hn : ∀ j, findJob (d.imp i).jobs id = some j → j.call = none ∨ j.g = g) :
      PS v d rv (.cpBody i id g) d (.goto (.unl i .unit))
  | cpBody (i id : Nat) (g : Grp) (j : Job α) (c : Call α) (hj : findJob (d.imp i).jobs id = some j) (hc : j.call = some c) (hg : j.g ≠ g) :
      PS v d rv (.cpBody i id g) (addH (chgJob v.tid d i id g) i ⟨j.id, g⟩) (.goto (.nw i (mkToks i g.lvl d.ntok (d.imp i).wk) none .chg))
  | unl (i : Nat) (w : Val) : PS v d rv (.unl i w) d (.sync (.unlock (gd i)) (.done w))
  | done (w : Val) : PS v d rv (.done w) d (.ret w)
  | stIn (h id : Nat) (i : Nat) (hi : d.deref h = some i) : PS v d rv (.stIn h id) d (.sync (.lock (gd i)) (.clIn i id .stop))
  | stNo (i id : Nat) (hn : ∀ j, findJob (d.imp i).jobs id = some j → j.call = none) :
      PS v d rv (.clIn i id .stop) (d.ev (.noStop v.tid i id)) (.goto (.clUnl i none .stop))
  | stop (i id : Nat) (j : Job α) (c : Call α) (hj : findJob (d.imp i).jobs id = some j) (hc : j.call = some c) :
      PS v d rv (.clIn i id .stop) ((eraseJob d i id).ev (.stopped v.tid i id c)) (.sync (.dropTask c.p (.inner c.u c.a)) (.clUnl i (some c) .stop))
  | clNo (i id : Nat) (c : Call α) (hn : findJob (d.imp i).jobs id = none) :
      PS v d rv (.clIn i id (.job c)) (d.ev (.done v.tid i id c)) (.goto (.clUnl i none (.job c)))
  | clJob (i id : Nat) (c : Call α) (j : Job α) (hj : findJob (d.imp i).jobs id = some j) (hc : j.call = none) :
      PS v d rv (.clIn i id (.job c)) ((eraseJob d i id).ev (.done v.tid i id c)) (.goto (.clUnl i none (.job c)))
  | clDrop (i id : Nat) (c : Call α) (j : Job α) (c' : Call α) (hj : findJob (d.imp i).jobs id = some j) (hc : j.call = some c') :
      PS v d rv (.clIn i id (.job c)) ((eraseJob d i id).ev (.done v.tid i id c)) (.sync (.dropTask c'.p (.inner c'.u c'.a)) (.clUnl i (some c') (.job c)))
  | clUnl (i : Nat) (o : Option (Call α)) (K : CK α) : PS v d rv (.clUnl i o K) d (.sync (.unlock (gd i)) (.clFin K))
  | stFin : PS v d rv (.clFin .stop) d (.ret .unit)
  | clFin (c : Call α) : PS v d rv (.clFin (.job c)) d (.sync (.dropTask c.p (.inner c.u c.a)) (.done .unit))
  | saIn (h : Nat) (i : Nat) (hi : d.deref h = some i) : PS v d rv (.saIn h) d (.sync (.lock (gd i)) (.caIn i .user))
  | caIn (i : Nat) (K : SK) :
      PS v d rv (.caIn i K) { d.upd i { d.imp i with jobs := [] } with plog := dropEvs v.tid i (d.imp i).jobs ++ d.plog }
        (.goto (.caLoop i none ((d.imp i).jobs.filterMap (·.call)) K))
  | caLoop (i : Nat) (o : Option (Call α)) (c : Call α) (l : List (Call α)) (K : SK) :
      PS v d rv (.caLoop i o (c :: l) K) d (.sync (.dropTask c.p (.inner c.u c.a)) (.caLoop i (some c) l K))
  | caEnd (i : Nat) (o : Option (Call α)) (K : SK) : PS v d rv (.caLoop i o [] K) (d.upd i { d.imp i with q := [] }) (.sync (.unlock (gd i)) (.caFin i K))
  | saFin (i : Nat) : PS v d rv (.caFin i .user) d (.ret .unit)
  | meFin (i : Nat) (K : DK) : PS v d rv (.caFin i (.mem K)) d (.goto (.diEnd K))
  | caFin (i : Nat) (K : DK) : PS v d rv (.caFin i (.dtor K)) d (.sync (.lock (gd i)) (.diIn i K))
  | delNo (h : Nat) (d' : PData α δ) (o : PObj) (ho : d.obj h = some o) (hi : o.impl = none) (hd : d' = { d with
        live := match o.sen with | some n => set d.live n false | none => d.live
        obj := set d.obj h (some { o with sen := none }) }) : PS v d rv (.delIn h) d' (.goto (.diEnd (.del h)))
  | delIn (h : Nat) (d' : PData α δ) (o : PObj) (i : Nat) (hq : d.dying i = false) (ho : d.obj h = some o) (hi : o.impl = some i) (hd : d' = { d with
        live := match o.sen with | some n => set d.live n false | none => d.live
        obj := set d.obj h (some { o with sen := none }), dying := set d.dying i true, plog := .dies v.tid i :: d.plog }) : PS v d rv (.delIn h) d' (.sync (.lock (gd i)) (.caIn i (.dtor (.del h))))
  | diIn (i : Nat) (K : DK) : PS v d rv (.diIn i K) ((d.upd i { d.imp i with wk := [] }).ev (.parted v.tid i)) (.sync (.unlock (gd i)) (.diJoin i (d.imp i).wk K))
  | diMem (i : Nat) (K : DK) : PS v d rv (.diJoin i [] K) d (.sync (.lock (gd i)) (.caIn i (.mem K)))
  | diJoin (i : Nat) (x : Wk) (ws : List Wk) (K : DK) : PS v d rv (.diJoin i (x :: ws) K) d (.core (.notifyExit x.id) (.diStd i x ws K))
  | diStd (i : Nat) (x : Wk) (ws : List Wk) (K : DK) (hx : x.n ≠ v.tid) : PS v d rv (.diStd i x ws K) d (.core (.join x.n) (.diJoin i ws K))
  | diEnd (h : Nat) : PS v d rv (.diEnd (.del h)) { d with obj := set d.obj h none } (.ret .unit)
  | maEnd (h h' : Nat) (d' : PData α δ) (o o' : PObj) (ho : d.obj h = some o) (ho' : d.obj h' = some o') (hd : d' = { d with
        live := match o.sen with | some n => set d.live n false | none => d.live
        obj := set (set d.obj h (some { o with sen := o'.sen })) h' (some { o' with sen := none })
        mix := mixed d.mix o o' }) :
      PS v d rv (.diEnd (.asg h h')) d' (.ret .unit)
  | mvIn (h h' : Nat) (o : PObj) (hn : d.obj h = none) (ho : d.obj h' = some o) :
      PS v d rv (.mvIn h h') { d with obj := set (set d.obj h (some o)) h' (some ⟨none, none⟩) } (.ret .unit)
  | maSelf (h : Nat) : PS v d rv (.maIn h h) d (.ret .unit)
  | maNo (h h' : Nat) (d' : PData α δ) (o o' : PObj) (hne : h ≠ h') (ho : d.obj h = some o) (ho' : d.obj h' = some o') (hi : o.impl = none)
      (hd : d' = { d with obj := set (set d.obj h (some { o with impl := o'.impl })) h' (some { o' with impl := none }), mix := mixed d.mix o o' }) :
      PS v d rv (.maIn h h') d' (.goto (.diEnd (.asg h h')))
  | maIn (h h' : Nat) (d' : PData α δ) (o o' : PObj) (i : Nat) (hq : d.dying i = false) (hne : h ≠ h') (ho : d.obj h = some o) (ho' : d.obj h' = some o')
      (hi : o.impl = some i)
      (hd : d' = { d with obj := set (set d.obj h (some { o with impl := o'.impl })) h' (some { o' with impl := none }), mix := mixed d.mix o o',
                          dying := set d.dying i true, plog := .dies v.tid i :: d.plog }) :
      PS v d rv (.maIn h h') d' (.sync (.lock (gd i)) (.caIn i (.dtor (.asg h h'))))
  | wtIn (h id : Nat) (i : Nat) (hi : d.deref h = some i) : PS v d rv (.wtIn h id) d (.sync (.lock (gd i)) (.wtBody i id))
  | wtNo (i id : Nat) (hn : findJob (d.imp i).jobs id = none) :
      PS v d rv (.wtBody i id) (d.ev (.waits v.tid i id none)) (.sync (.unlock (gd i)) (.wtGo i d.plog.length [] []))
  | wtBody (i id : Nat) (j : Job α) (hj : findJob (d.imp i).jobs id = some j) :
      PS v d rv (.wtBody i id) (d.ev (.waits v.tid i id (some j.fut))) (.sync (.unlock (gd i)) (.wtGo i d.plog.length [] [j.fut]))
  | wtEnd (i k : Nat) (dn : List Nat) : PS v d rv (.wtGo i k dn []) ((waitEv v d i k dn).ev (.waitRet v.tid i k dn.reverse)) (.ret .unit)
  | wtGo (i k : Nat) (dn : List Nat) (p : Nat) (l : List Nat) :
      PS v d rv (.wtGo i k dn (p :: l)) (waitEv v d i k dn) (.sync (.futWait (some p)) (.wtGo i k (p :: dn) l))
  | waIn (h : Nat) (i : Nat) (hi : d.deref h = some i) : PS v d rv (.waIn h) d (.sync (.lock (gd i)) (.waBody i))
  | waBody (i : Nat) : PS v d rv (.waBody i) (d.ev (.waitsAll v.tid i ((d.imp i).jobs.map fun j => (j.id, j.fut))))
      (.sync (.unlock (gd i)) (.wtGo i d.plog.length [] ((d.imp i).jobs.map (·.fut))))
  | cnIn (h : Nat) (i : Nat) (hi : d.deref h = some i) : PS v d rv (.cnIn h) d (.sync (.lock (gd i)) (.cnBody i))
  | cnBody (i : Nat) : PS v d rv (.cnBody i) (d.ev (.counted v.tid i (d.imp i).jobs.length)) (.goto (.unl i (.nat (d.imp i).jobs.length)))
  | jsNo (f : JF) (hs : ∀ n, f.sen = some n → d.live n = false) : PS v d rv (.jsIn f) (d.ev (.expired v.tid f.id)) (.ret .unit)
  | jsNull (f : JF) (n : Nat) (hs : f.sen = some n) (hl : d.live n = true) (ho : f.owner = none) : PS v d rv (.jsIn f) d (.ret .unit)
  | jsIn (f : JF) (n h : Nat) (hs : f.sen = some n) (hl : d.live n = true) (ho : f.owner = some h) :
      PS v d rv (.jsIn f) d (.goto (.stIn h f.id))
  | jcNo (f : JF) (g : Grp) (hs : ∀ n, f.sen = some n → d.live n = false) : PS v d rv (.jcIn f g) (d.ev (.expired v.tid f.id)) (.ret .unit)
  | jcNull (f : JF) (g : Grp) (n : Nat) (hs : f.sen = some n) (hl : d.live n = true) (ho : f.owner = none) : PS v d rv (.jcIn f g) d (.ret .unit)
  | jcIn (f : JF) (g : Grp) (n h : Nat) (hs : f.sen = some n) (hl : d.live n = true) (ho : f.owner = some h) :
      PS v d rv (.jcIn f g) d (.goto (.cpIn h f.id g))
  | ckExit (x : Tok) (hx : v.exit = true) : PS v d rv (.ckIn x) ((d.close x).ev (.exits v.tid x)) (.ret .unit)
  | ckIn (x : Tok) (hx : v.exit = false) : PS v d rv (.ckIn x) d (.sync (.lock (gd x.i)) (.ckBody x))
  | ckUnl (x : Tok) (id : Nat) (c : Option (Call α)) : PS v d rv (.ckUnl x id c) d (.sync (.unlock (gd x.i)) (.ckGo x id c))
  | ckNone (x : Tok) (id : Nat) : PS v d rv (.ckGo x id none) d (.ret .unit)
  | ckGo (x : Tok) (id : Nat) (c : Call α) : PS v d rv (.ckGo x id (some c)) d (.sync (.runTask c.p (.inner c.u c.a)) (.ckRan x id c))
  | ckRan (x : Tok) (id : Nat) (c : Call α) : PS v d rv (.ckRan x id c) d (.sync (.lock (gd x.i)) (.clIn x.i id (.job c)))
  | inRun (p : Nat) (a : α) : PS v d rv (.inRun p a) d (.sync (.runTask p (.usr a)) (.rtEnd p a))
  | inDtor (p : Nat) (a : α) : PS v d rv (.inDtor p a) d (.sync (.dropTask p (.usr a)) (.dtEnd p a))
  | rtEnd (p : Nat) (a : α) : PS v d rv (.rtEnd p a) d (.ret .unit)
  | dtEnd (p : Nat) (a : α) : PS v d rv (.dtEnd p a) d (.ret .unit)
  | ckDtor : PS v d rv .ckDtor d (.ret .unit)

theorem enter_ps {v : View} {d : PData α δ} {rv : Val} {f : PFrame α φ} {h : Nat} {k : Nat → PFrame α φ}
    (hk : ∀ i, d.deref h = some i → PS v d rv f d (.sync (.lock (gd i)) (k i))) : PS v d rv f (enter d h k).1 (enter d h k).2 := by
  unfold enter
  split
  · exact hk _ ‹_›
  · exact .bad _

theorem pstep_ps (v : View) (d : PData α δ) (rv : Val) (f : PFrame α φ) (hf : ∀ g, f ≠ .usr g) :
    PS v d rv f (pstep v d rv f).1 (pstep v d rv f).2 := by
  cases f with
  | usr g => exact absurd rfl (hf g)
  | newIn h ws =>
    simp only [pstep]
    split
    · exact .bad _
    · exact .newIn _ _ (by rename_i h; simpa using h)
  | newW i h ws => cases ws <;> constructor
  | newId i h l n ws => simp only [pstep]; split <;> first | exact .newId _ _ _ _ _ _ rfl | exact .bad _
  | wkLoop =>
    simp only [pstep]
    split
    · exact .wkExit ‹_›
    · exact .wkWait (by rename_i h; simpa using h)
  | scTask k b h g a => simp only [pstep]; split <;> first | exact .scTask _ _ _ _ _ _ _ rfl ‹_› | exact .bad _
  | scJob k i h g u a => simp only [pstep]; split <;> first | exact .scJob _ _ _ _ _ _ _ rfl | exact .bad _
  | ajIn i h g c =>
    have := PS.ajIn (φ := φ) (v := v) (rv := rv) (d := d) i h g c
    simp only [pstep, addHandle]
    simpa only [addH, insJob, PData.upd, PData.ev, set_same] using this
  | nw i l cur K => cases l <;> constructor
  | nwFin i K =>
    cases K with
    | chg => exact .finChg _
    | sched h u id => simp only [pstep]; split <;> first | exact .finSched _ _ _ _ _ | exact .bad _
  | cpIn h id g => exact enter_ps fun i hi => .cpIn _ _ _ _ hi
  | cpBody i id g =>
    simp only [pstep]
    split
    · rename_i hj; exact .cpNo _ _ _ (by rw [hj]; simp)
    · rename_i j hj
      split
      · rename_i h
        refine .cpNo _ _ _ ?_
        rw [hj]
        rintro j' h'
        cases h'
        rcases h with h | h
        · exact .inl (by simpa using h)
        · exact .inr h
      · rename_i h
        rw [not_or] at h
        obtain ⟨c, hc⟩ := Option.isSome_iff_exists.1 (Option.isSome_iff_ne_none.2 (by simpa using h.1))
        have := PS.cpBody (φ := φ) (v := v) (rv := rv) i id g j c hj hc h.2
        simp only [addHandle]
        simpa only [addH, chgJob, PData.upd, PData.ev, set_same] using this
  | stIn h id => exact enter_ps fun i hi => .stIn _ _ _ hi
  | clIn i id K =>
    simp only [pstep]
    split
    · rename_i hj; exact .stNo _ _ (by rw [hj]; simp)
    · rename_i j hj
      split
      · rename_i hc; exact .stNo _ _ (by rw [hj]; rintro _ h; cases h; exact hc)
      · rename_i c hc; exact .stop _ _ _ _ hj hc
    · rename_i hj; exact .clNo _ _ _ hj
    · rename_i c j hj
      split
      · rename_i hc; exact .clJob _ _ _ _ hj hc
      · rename_i c' hc; exact .clDrop _ _ _ _ _ hj hc
  | clFin K => cases K <;> constructor
  | saIn h => exact enter_ps fun i hi => .saIn _ _ hi
  | caLoop i o l K => cases l <;> constructor
  | caFin i K => cases K <;> constructor
  | delIn h =>
    simp only [pstep]
    split
    · exact .bad _
    · rename_i o ho
      split
      · exact .delNo _ _ _ ho ‹_› rfl
      · split
        · exact .bad _
        · exact .delIn _ _ _ _ (by rename_i h; simpa using h) ho ‹_› rfl
  | diJoin i ws K => cases ws <;> constructor
  | diStd i x ws K =>
    simp only [pstep]
    split
    · exact .bad _
    · exact .diStd _ _ _ _ ‹_›
  | diEnd K =>
    cases K with
    | del h => exact .diEnd _
    | asg h h' =>
      simp only [pstep, endDtor]
      split
      · exact .maEnd _ _ _ _ _ ‹_› ‹_› rfl
      · exact .bad _
  | mvIn h h' => simp only [pstep]; split <;> first | exact .mvIn _ _ _ ‹_› ‹_› | exact .bad _
  | maIn h h' =>
    simp only [pstep]
    split
    · rename_i e; subst e; exact .maSelf _
    · split
      · split
        · exact .maNo _ _ _ _ _ ‹_› ‹_› ‹_› ‹_› rfl
        · split
          · exact .bad _
          · exact .maIn _ _ _ _ _ _ (by rename_i h; simpa using h) ‹_› ‹_› ‹_› ‹_› rfl
      · exact .bad _
  | wtIn h id => exact enter_ps fun i hi => .wtIn _ _ _ hi
  | wtBody i id =>
    simp only [pstep]
    split
    · exact .wtNo _ _ ‹_›
    · exact .wtBody _ _ _ ‹_›
  | wtGo i k o l => cases l <;> constructor
  | waIn h => exact enter_ps fun i hi => .waIn _ _ hi
  | cnIn h => exact enter_ps fun i hi => .cnIn _ _ hi
  | jsIn f =>
    simp only [pstep]
    split
    · rename_i h; exact .jsNo _ (by rw [h]; simp)
    · rename_i n h
      split
      · rename_i hl
        split
        · exact .jsNull _ _ h hl ‹_›
        · exact .jsIn _ _ _ h hl ‹_›
      · rename_i hl; exact .jsNo _ (by rw [h]; rintro m hm; cases hm; simpa using hl)
  | jcIn f g =>
    simp only [pstep]
    split
    · rename_i h; exact .jcNo _ _ (by rw [h]; simp)
    · rename_i n h
      split
      · rename_i hl
        split
        · exact .jcNull _ _ _ h hl ‹_›
        · exact .jcIn _ _ _ _ h hl ‹_›
      · rename_i hl; exact .jcNo _ _ (by rw [h]; rintro m hm; cases hm; simpa using hl)
  | ckIn x =>
    simp only [pstep]
    split
    · exact .ckExit _ ‹_›
    · exact .ckIn _ (by rename_i h; simpa using h)
  | ckBody x => exact .bad _
  | ckGo i id c => cases c <;> constructor
  | _ => constructor

/-- The branches of `pick`: nothing eligible; a handle is popped and no callable taken; a callable is taken. -/
inductive PK (t : Nat) (d : PData α δ) (i L : Nat) : PData α δ → Nat → Option (Call α) → Prop
  | idle (he : elig L (d.imp i).q = []) : PK t d i L (d.ev (.idle t i L)) 0 none
  | skip (k : Nat) (h : Hd) (id : Nat) (ht : isTop L (d.imp i).q k = true) (hk : (d.imp i).q[k]? = some h)
      (hn : ∀ j, findJob (d.imp i).jobs h.id = some j → ¬ L ≤ j.g.lvl ∨ j.call = none) :
      PK t d i L ((d.upd i { d.imp i with q := (d.imp i).q.eraseIdx k }).ev (.skipped t i L h)) id none
  | took (k : Nat) (h : Hd) (j : Job α) (c : Call α) (ht : isTop L (d.imp i).q k = true) (hk : (d.imp i).q[k]? = some h)
      (hj : findJob (d.imp i).jobs h.id = some j) (hL : L ≤ j.g.lvl) (hc : j.call = some c) :
      PK t d i L ((d.upd i { d.imp i with q := (d.imp i).q.eraseIdx k, jobs := modJob (d.imp i).jobs h.id fun j => { j with call := none } }).ev
        (.took t i L j.id c h)) j.id (some c)

theorem pick_pk {t : Nat} {d : PData α δ} {i L : Nat} {k : Option Nat} {r : PData α δ × Nat × Option (Call α)} (h : pick t d i L k = some r) :
    PK t d i L r.1 r.2.1 r.2.2 := by
  unfold pick at h
  split at h
  · split at h
    · cases h; exact .idle ‹_›
    · cases h
  · split at h
    · rename_i ht
      split at h
      · cases h
      · rename_i x hx
        dsimp only at h
        split at h
        · rename_i hj
          cases h
          exact .skip _ _ _ ht hx (by rw [hj]; simp)
        · rename_i j hj
          split at h
          · rename_i hL
            split at h
            · rename_i hc
              cases h
              exact .skip _ _ _ ht hx (by rw [hj]; rintro _ h; cases h; exact .inr hc)
            · rename_i c hc
              cases h
              exact .took _ _ _ _ ht hx hj hL hc
          · rename_i hL
            cases h
            exact .skip _ _ _ ht hx (by rw [hj]; rintro _ h; cases h; exact .inl hL)
    · cases h

/-- A step is a step of the user code, the locked region of check_jobs, or another step of the pool. -/
inductive PC (U : PApp α φ δ χ) (v : View) (d : PData α δ) (rv : Val) (ch : Ch (PCh χ)) :
    PFrame α φ → PData α δ → SAct (PTask α) (PFrame α φ) → Prop
  | usr (g : φ) (ch' : Ch χ) (u : δ) (a : PAct α φ) (h : U.step v d.u g rv ch' = some (u, a)) : PC U v d rv ch (.usr g) { d with u := u } (liftP a)
  | ck (x : Tok) (d' : PData α δ) (id : Nat) (c : Option (Call α)) (h : PK v.tid d x.i x.L d' id c) :
      PC U v d rv ch (.ckBody x) (d'.close x) (.goto (.ckUnl x id c))
  | ps (f : PFrame α φ) (d' : PData α δ) (a : SAct (PTask α) (PFrame α φ)) (hf : ∀ g, f ≠ .usr g) (hb : ∀ x, f ≠ .ckBody x)
      (h : PS v d rv f d' a) : PC U v d rv ch f d' a

theorem pool_pc {U : PApp α φ δ χ} {v : View} {d d' : PData α δ} {rv : Val} {ch : Ch (PCh χ)} {f : PFrame α φ} {a : SAct (PTask α) (PFrame α φ)}
    (h : (poolApp U).step v d f rv ch = some (d', a)) : PC U v d rv ch f d' a := by
  by_cases hf : ∃ g, f = .usr g
  · obtain ⟨g, rfl⟩ := hf
    simp only [poolApp] at h
    split at h
    · contradiction
    · split at h
      · contradiction
      · simp only [Option.some.injEq, Prod.mk.injEq] at h
        obtain ⟨rfl, rfl⟩ := h
        exact .usr _ _ _ _ ‹_›
  by_cases hb : ∃ x, f = .ckBody x
  · obtain ⟨x, rfl⟩ := hb
    simp only [poolApp] at h
    split at h
    · contradiction
    · split at h
      · contradiction
      · rename_i hp
        simp only [Option.some.injEq, Prod.mk.injEq] at h
        obtain ⟨rfl, rfl⟩ := h
        exact .ck _ _ _ _ (pick_pk hp)
  have hf' : ∀ g, f ≠ .usr g := fun g hg => hf ⟨g, hg⟩
  have hb' : ∀ x, f ≠ .ckBody x := fun x hg => hb ⟨x, hg⟩
  have h' : ch = .go ∧ pstep v d rv f = (d', a) := by
    cases f <;> first | exact absurd rfl (hf' _) | exact absurd rfl (hb' _) | skip
    all_goals
      simp only [poolApp] at h
      split at h
      · exact ⟨rfl, Option.some.inj h⟩
      · contradiction
  have := pstep_ps v d rv f hf'
  rw [h'.2] at this
  exact .ps _ _ _ hf' hb' this

theorem pool_throw {U : PApp α φ δ χ} {f f' : PFrame α φ} {e : Exn} (h : (poolApp U).onThrow f e = some f') :
    (∃ g g', f = .usr g ∧ f' = .usr g') ∨ (∃ i l cur K, f = .nw i l cur K ∧ f' = .nwThr i e) ∨
    (∃ i o K, f = .clUnl i o K ∧ f' = .clThr i e) ∨ ∃ i o l K, f = .caLoop i o l K ∧ f' = .clThr i e := by
  cases f
  case usr g =>
    simp only [poolApp, Option.map_eq_some_iff] at h
    obtain ⟨g', -, rfl⟩ := h
    exact .inl ⟨g, g', rfl, rfl⟩
  case nw i l cur K => cases h; exact .inr (.inl ⟨_, _, _, _, rfl, rfl⟩)
  case clUnl i o K => cases h; exact .inr (.inr (.inl ⟨_, _, _, rfl, rfl⟩))
  case caLoop i o l K => cases h; exact .inr (.inr (.inr ⟨_, _, _, _, rfl, rfl⟩))
  all_goals cases h

end
end Pool
end Itc
