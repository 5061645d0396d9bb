import Verif.Sync.Model
import Verif.Core.Top

/-!
# Case table of the synchronisation layer (proof infrastructure, no claims)

`SS`: the branches of `sstep`, one constructor per branch.
-/
namespace Itc
namespace Sync
open Core
section
variable {α φ δ χ : Type}

inductive SS (run destroy : α → φ) (v : View) (d : SData α) (rv : Val) : SFrame α φ → SData α → Act (STask α) (SFrame α φ) → Prop
  | done (r : Val) : SS run destroy v d rv (.done r) d (.ret r)
  | term (p : Option Nat) : SS run destroy v d rv (.term p) d .terminate
  | lkIn (n : Nat) (h : d.lk (.user n) = none) : SS run destroy v d rv (.lkIn n) (d.setLk (.user n) (some v.tid)) (.ret .unit)
  | lkUn (n : Nat) (h : d.lk (.user n) = some v.tid) : SS run destroy v d rv (.lkUn n) (d.setLk (.user n) none) (.ret .unit)
  | lkUnBad (n : Nat) (h : d.lk (.user n) ≠ some v.tid) : SS run destroy v d rv (.lkUn n) d .terminate
  | cwIn (n m : Nat) (h : d.lk (.user m) = some v.tid) : SS run destroy v d rv (.cwIn n m) d (.goto (.swIn (.cv n m)))
  | cwBad (n m : Nat) (h : d.lk (.user m) ≠ some v.tid) : SS run destroy v d rv (.cwIn n m) d .terminate
  | swIn (w : W) : SS run destroy v d rv (.swIn w) (d.addWaiter v.tid w.sem v.id).1
      (.goto (.swLoop w v.id (d.addWaiter v.tid w.sem v.id).2))
  | swSig (w : W) (i k : Nat) (h : d.tok k = true) : SS run destroy v d rv (.swLoop w i k) d (.goto (.swRem w i k .sig))
  | swNot (w : W) (i k : Nat) (h : d.tok k = false) : SS run destroy v d rv (.swLoop w i k) d (.goto (.swChk w i k))
  | swExit (w : W) (i k : Nat) (h : v.exit = true) : SS run destroy v d rv (.swChk w i k) d (.goto (.swRem w i k .exit))
  | swStay (w : W) (i k : Nat) (h : v.exit = false) : SS run destroy v d rv (.swChk w i k) d (.goto (.swBefore w i k))
  | swBefore (w : W) (i k : Nat) : SS run destroy v d rv (.swBefore w i k) (d.relLk w.lk) (.call .wait (.swAfter w i k))
  | swAfterN (w : W) (i k : Nat) (h : w.lk = none) : SS run destroy v d rv (.swAfter w i k) d (.goto (.swLoop w i k))
  | swAfterL (w : W) (i k : Nat) (l : Lk) (h : w.lk = some l) (hf : d.lk l = none) :
      SS run destroy v d rv (.swAfter w i k) (d.setLk l (some v.tid)) (.goto (.swLoop w i k))
  | swRemC (n m i k : Nat) (y : Why) : SS run destroy v d rv (.swRem (.cv n m) i k y) (d.remWaiter v.tid (.cv n) i k y) (.ret .unit)
  | swRemM (m j i k : Nat) (y : Why) : SS run destroy v d rv (.swRem (.mtx m j) i k y) (d.remWaiter v.tid (.mtx m) i k y) (.goto (.mlTry m j))
  | swRemF (p i k : Nat) (y : Why) : SS run destroy v d rv (.swRem (.fw p) i k y) (d.remWaiter v.tid (.fut p) i k y) (.goto (.fwLoop p))
  | swRemV (p : Nat) (dur : Int) (i k : Nat) (y : Why) : SS run destroy v d rv (.swRem (.fv p dur) i k y) (d.remWaiter v.tid (.fut p) i k y) (.ret .unit)
  | cfIn (n m : Nat) (dur : Int) (h : d.lk (.user m) = some v.tid) :
      SS run destroy v d rv (.cfIn n m dur) d (.goto (.wfIn (.cv n m) dur))
  | cfBad (n m : Nat) (dur : Int) (h : d.lk (.user m) ≠ some v.tid) : SS run destroy v d rv (.cfIn n m dur) d .terminate
  | wfIn (w : W) (dur : Int) : SS run destroy v d rv (.wfIn w dur) d (.goto (.wfAdd w v.clock (v.clock + dur)))
  | wfAdd (w : W) (now e : Int) : SS run destroy v d rv (.wfAdd w now e) (d.addWaiter v.tid w.sem v.id).1
      (.goto (.wfLoop w v.id (d.addWaiter v.tid w.sem v.id).2 now e false))
  | wfSig (w : W) (i k : Nat) (now e : Int) (b : Bool) (h : d.tok k = true) :
      SS run destroy v d rv (.wfLoop w i k now e b) d (.goto (.wfRem w i b k .sig))
  | wfTime (w : W) (i k : Nat) (now e : Int) (b : Bool) (h : d.tok k = false) (he : e ≤ now) :
      SS run destroy v d rv (.wfLoop w i k now e b) d (.goto (.wfRem w i true k .time))
  | wfNot (w : W) (i k : Nat) (now e : Int) (b : Bool) (h : d.tok k = false) (he : ¬ e ≤ now) :
      SS run destroy v d rv (.wfLoop w i k now e b) d (.goto (.wfChk w i k now e b))
  | wfExit (w : W) (i k : Nat) (now e : Int) (b : Bool) (h : v.exit = true) :
      SS run destroy v d rv (.wfChk w i k now e b) d (.goto (.wfRem w i b k .exit))
  | wfStay (w : W) (i k : Nat) (now e : Int) (b : Bool) (h : v.exit = false) :
      SS run destroy v d rv (.wfChk w i k now e b) d (.goto (.wfBefore w i k now e))
  | wfBefore (w : W) (i k : Nat) (now e : Int) :
      SS run destroy v d rv (.wfBefore w i k now e) (d.relLk w.lk) (.call (.waitFor (e - now)) (.wfAfter w i k e))
  | wfAfterN (w : W) (i k : Nat) (e : Int) (h : w.lk = none) :
      SS run destroy v d rv (.wfAfter w i k e) d (.goto (.wfNow w i k e (decide (rv = .cv true))))
  | wfAfterL (w : W) (i k : Nat) (e : Int) (l : Lk) (h : w.lk = some l) (hf : d.lk l = none) :
      SS run destroy v d rv (.wfAfter w i k e) (d.setLk l (some v.tid)) (.goto (.wfNow w i k e (decide (rv = .cv true))))
  | wfNow (w : W) (i k : Nat) (e : Int) (b : Bool) : SS run destroy v d rv (.wfNow w i k e b) d (.goto (.wfLoop w i k v.clock e b))
  | wfRemC (n m i k : Nat) (y : Why) (b : Bool) : SS run destroy v d rv (.wfRem (.cv n m) i b k y) (d.remWaiter v.tid (.cv n) i k y) (.ret (.cv b))
  | wfRemM (m j i k : Nat) (y : Why) (b : Bool) : SS run destroy v d rv (.wfRem (.mtx m j) i b k y) (d.remWaiter v.tid (.mtx m) i k y) (.ret (.cv b))
  | wfRemF (p i k : Nat) (y : Why) (b : Bool) : SS run destroy v d rv (.wfRem (.fw p) i b k y) (d.remWaiter v.tid (.fut p) i k y) (.ret (.cv b))
  | wfRemV (p : Nat) (dur : Int) (i k : Nat) (y : Why) (b : Bool) :
      SS run destroy v d rv (.wfRem (.fv p dur) i b k y) (d.remWaiter v.tid (.fut p) i k y) (.goto (.fvRes p dur b))
  | n1In (n : Nat) : SS run destroy v d rv (.n1In n)
      { d with sem := set d.sem (.cv n) (d.sem (.cv n)).tail, slog := .took v.tid (.cv n) ((d.sem (.cv n)).take 1) :: d.slog }
      (.goto (.nLoop (.cv n) ((d.sem (.cv n)).take 1)))
  | naIn (K : NK α) : SS run destroy v d rv (.naIn K)
      { d with sem := set d.sem K.sem [], slog := .took v.tid K.sem (d.sem K.sem) :: d.slog } (.goto (.nLoop K (d.sem K.sem)))
  | nEndC (n : Nat) : SS run destroy v d rv (.nLoop (.cv n) []) d (.ret .unit)
  | nEndM (m : Nat) : SS run destroy v d rv (.nLoop (.mtx m) []) d (.ret .unit)
  | nEndF (p : Nat) (cs : List (Kont α)) : SS run destroy v d rv (.nLoop (.fut p cs) []) d (.goto (.srUnl p cs))
  | nSkip (K : NK α) (k : Nat) (l : List (Nat × Nat)) : SS run destroy v d rv (.nLoop K ((0, k) :: l)) d (.goto (.nLoop K l))
  | nSig (K : NK α) (i k : Nat) (l : List (Nat × Nat)) (h : i ≠ 0) : SS run destroy v d rv (.nLoop K ((i, k) :: l))
      { d with tok := set d.tok k true, slog := .sig v.tid k :: d.slog } (.goto (.nCall K i k l))
  | nCall (K : NK α) (i k : Nat) (l : List (Nat × Nat)) :
      SS run destroy v d rv (.nCall K i k l) d (.call (.dispatch i .noop) (.nAfter K i k l))
  | nAfter (K : NK α) (i k : Nat) (l : List (Nat × Nat)) : SS run destroy v d rv (.nAfter K i k l) d (.goto (.nLoop K l))
  | mlIn (m : Nat) : SS run destroy v d rv (.mlIn m) d (.goto (.mlTry m v.id))
  | mlBusy (m i : Nat) (h : d.flag m = true) : SS run destroy v d rv (.mlTry m i) d (.goto (.mlChk m i))
  | mlGot (m i : Nat) (h : d.flag m = false) : SS run destroy v d rv (.mlTry m i)
      { d with flag := set d.flag m true, slog := .acq v.tid m i :: d.slog } (.goto (.mlOwn m i))
  | mlDead (m i : Nat) (h : d.owner m = i) : SS run destroy v d rv (.mlChk m i) d (.throw .deadlock)
  | mlWait (m i : Nat) (h : d.owner m ≠ i) : SS run destroy v d rv (.mlChk m i) d (.goto (.swIn (.mtx m i)))
  | mlOwn (m i : Nat) : SS run destroy v d rv (.mlOwn m i) { d with owner := set d.owner m i } (.ret .unit)
  | mtBusy (m : Nat) (h : d.flag m = true) : SS run destroy v d rv (.mtIn m) d (.ret (.bool false))
  | mtGot (m : Nat) (h : d.flag m = false) : SS run destroy v d rv (.mtIn m)
      { d with flag := set d.flag m true, slog := .acq v.tid m v.id :: d.slog } (.goto (.mtOwn m))
  | mtOwn (m : Nat) : SS run destroy v d rv (.mtOwn m) { d with owner := set d.owner m v.id } (.ret (.bool true))
  | muIn (m : Nat) (h : d.owner m = v.id) : SS run destroy v d rv (.muIn m) d (.goto (.muOwn m v.id))
  | muBad (m : Nat) (h : d.owner m ≠ v.id) : SS run destroy v d rv (.muIn m) d (.throw .noLock)
  | muOwn (m i : Nat) : SS run destroy v d rv (.muOwn m i) { d with owner := set d.owner m 0 } (.goto (.muFlag m i))
  | muFlag (m i : Nat) : SS run destroy v d rv (.muFlag m i)
      { d with flag := set d.flag m false, slog := .rel v.tid m i :: d.slog } (.goto (.naIn (.mtx m)))
  | svIn (p : Nat) (r : Res) (h : d.lk (.guard p) = none) :
      SS run destroy v d rv (.svIn p r) (d.setLk (.guard p) (some v.tid)) (.goto (.svChk p r))
  | svBad (p : Nat) (r : Res) (h : d.ready p = true) : SS run destroy v d rv (.svChk p r)
      ((d.setLk (.guard p) none).ev (.refusedSet v.tid p r)) (.throw .promiseSatisfied)
  | svVal (p : Nat) (w : Val) (h : d.ready p = false) : SS run destroy v d rv (.svChk p (.val w))
      (d.setSt p { d.st p with value := if (d.st p).isVoid then none else some w }) (.goto (.srSet p (.val w)))
  | svExn (p : Nat) (e : Exn) (h : d.ready p = false) : SS run destroy v d rv (.svChk p (.exn e))
      (d.setSt p { d.st p with exn := some e }) (.goto (.srSet p (.exn e)))
  | srVal (p : Nat) (w : Val) : SS run destroy v d rv (.srSet p (.val w))
      ((d.setSt p { d.st p with status := .ready, cbs := [] }).ev (.sat v.tid p (.val w))) (.goto (.naIn (.fut p (d.st p).cbs)))
  | srExn (p : Nat) (e : Exn) : SS run destroy v d rv (.srSet p (.exn e))
      ((d.setSt p { d.st p with status := .error, cbs := [] }).ev (.sat v.tid p (.exn e))) (.goto (.naIn (.fut p (d.st p).cbs)))
  | srUnl (p : Nat) (l : List (Kont α)) : SS run destroy v d rv (.srUnl p l) (d.setLk (.guard p) none) (.goto (.srLoop p [] l))
  | srEnd (p : Nat) (dn : List (Kont α)) : SS run destroy v d rv (.srLoop p dn []) d (.goto (.srDtor p dn))
  | srNext (p : Nat) (dn : List (Kont α)) (c : Kont α) (l : List (Kont α)) :
      SS run destroy v d rv (.srLoop p dn (c :: l)) d (.goto (.laIn (.sr p dn l) c))
  | srDend (p : Nat) : SS run destroy v d rv (.srDtor p []) d (.ret .unit)
  | srDnext (p : Nat) (c : Kont α) (l : List (Kont α)) :
      SS run destroy v d rv (.srDtor p (c :: l)) d (.push (.ftDtor c.p c.body) (.srDtor p l))
  | scNow (p : Nat) (c : Kont α) (hl : d.lk (.guard p) = none) (h : d.ready p = true) :
      SS run destroy v d rv (.scIn p c) (d.ev (.attached v.tid p c.p)) (.goto (.laIn .sc c))
  | scLater (p : Nat) (c : Kont α) (hl : d.lk (.guard p) = none) (h : d.ready p = false) : SS run destroy v d rv (.scIn p c)
      ((d.setSt p { d.st p with cbs := (d.st p).cbs ++ [c] }).ev (.attached v.tid p c.p)) (.ret .unit)
  | laQueue (K : LK α) (c : Kont α) (id : Nat) (hid : id = if c.id = 0 then v.id else c.id) (h : c.async = true ∨ v.id ≠ id) :
      SS run destroy v d rv (.laIn K c) (d.ev (.launched v.tid c.p id c.async v.id))
        (.call (.invokePackaged id (.fut c.p c.body)) (.laRet K c))
  | laInl (K : LK α) (c : Kont α) (id : Nat) (hid : id = if c.id = 0 then v.id else c.id) (h : c.async = false) (hi : v.id = id) :
      SS run destroy v d rv (.laIn K c) (d.ev (.launched v.tid c.p id c.async v.id)) (.push (.ftRun c.p c.body) (.laInl K c))
  | laRet (K : LK α) (c : Kont α) : SS run destroy v d rv (.laRet K c) d (laNext K c (decide (rv ≠ .bool true)))
  | laEnd (K : LK α) (c : Kont α) : SS run destroy v d rv (.laInl K c) d (laNext K c true)
  | rtIn (p : Nat) (a : α) (h : p < d.nst) (ho : (d.st p).owner = .ext) : SS run destroy v d rv (.rtIn p a) (d.ev (.called v.tid p)) (.push (.ftRun p a) (.xtRet p))
  | rtBad (p : Nat) (a : α) : SS run destroy v d rv (.rtIn p a) d .terminate
  | dtIn (p : Nat) (a : α) (h : p < d.nst) (ho : (d.st p).owner = .ext) : SS run destroy v d rv (.dtIn p a) (d.ev (.freed v.tid p)) (.push (.ftDtor p a) (.xtRet p))
  | xtRet (p : Nat) : SS run destroy v d rv (.xtRet p) d (.ret .unit)
  | dtBad (p : Nat) (a : α) : SS run destroy v d rv (.dtIn p a) d .terminate
  | ftRun (p : Nat) (a : α) : SS run destroy v d rv (.ftRun p a) (d.ev (.bodyStart v.tid p)) (.push (.app (run a)) (.ftSet p))
  | ftSet (p : Nat) : SS run destroy v d rv (.ftSet p) (d.ev (.bodyRet v.tid p rv)) (.push (.svIn p (.val rv)) (.ftDone p))
  | ftDone (p : Nat) : SS run destroy v d rv (.ftDone p) d (.ret .unit)
  | ftThrew (p : Nat) (e : Exn) : SS run destroy v d rv (.ftThrew p e) (d.ev (.bodyThrew v.tid p e)) (.goto (.ftExc p e))
  | ftExc (p : Nat) (e : Exn) : SS run destroy v d rv (.ftExc p e) d (.push (.svIn p (.exn e)) (.ftEnd p))
  | ftEnd (p : Nat) : SS run destroy v d rv (.ftEnd p) d (.ret .unit)
  | ftFin (p : Nat) : SS run destroy v d rv (.ftFin p) d (.ret .unit)
  | ftDtor (p : Nat) (a : α) : SS run destroy v d rv (.ftDtor p a) d (.push (.app (destroy a)) (.pdIn p))
  | pdOk (p : Nat) (h : d.ready p = true) : SS run destroy v d rv (.pdIn p) (d.ev (.dropped v.tid p)) (.ret .unit)
  | pdBreak (p : Nat) (h : d.ready p = false) :
      SS run destroy v d rv (.pdIn p) d (.push (.svIn p (.exn .brokenPromise)) (.pdEnd p))
  | pdEnd (p : Nat) : SS run destroy v d rv (.pdEnd p) (d.ev (.dropped v.tid p)) (.ret .unit)
  | poNew (q : Nat) (b : Bool) (h : d.obj q = none) : SS run destroy v d rv (.poNew q b)
      { d.mkState v.tid { isVoid := b, home := q } with obj := set d.obj q (some d.nst) } (.ret .unit)
  | poNewBad (q : Nat) (b : Bool) : SS run destroy v d rv (.poNew q b) d .terminate
  | poDnone (q : Nat) (h : d.obj q = none) : SS run destroy v d rv (.poDtor q) d (.ret .unit)
  | poDok (q p : Nat) (h : d.obj q = some p) (hr : d.ready p = true) :
      SS run destroy v d rv (.poDtor q) { d with obj := set d.obj q none } (.ret .unit)
  | poDbreak (q p : Nat) (h : d.obj q = some p) (hr : d.ready p = false) :
      SS run destroy v d rv (.poDtor q) d (.push (.svIn p (.exn .brokenPromise)) (.poEnd q p))
  | poEnd (q p : Nat) : SS run destroy v d rv (.poEnd q p) { d with obj := set d.obj q none } (.ret .unit)
  | poSelf (q : Nat) : SS run destroy v d rv (.poMove q q) d (.ret .unit)
  | poMove (q q' : Nat) (h : q ≠ q') :
      SS run destroy v d rv (.poMove q q') { d with obj := set (set d.obj q (d.obj q')) q' none } (.ret .unit)
  | poSetN (q : Nat) (r : Res) (h : d.obj q = none) : SS run destroy v d rv (.poSet q r) d (.throw .noState)
  | poSet (q : Nat) (r : Res) (p : Nat) (h : d.obj q = some p) : SS run destroy v d rv (.poSet q r) d (.goto (.svIn p r))
  | poFutN (q : Nat) (h : d.obj q = none) : SS run destroy v d rv (.poFut q) d (.throw .noState)
  | poFutBad (q p : Nat) (h : d.obj q = some p) (hr : (d.st p).retrieved = true) :
      SS run destroy v d rv (.poFut q) d (.throw .futureRetrieved)
  | poFut (q p : Nat) (h : d.obj q = some p) (hr : (d.st p).retrieved = false) : SS run destroy v d rv (.poFut q)
      ((d.setSt p { d.st p with retrieved := true }).ev (.gotFut v.tid p)) (.ret (.nat p))
  | fwN : SS run destroy v d rv (.fwIn? none) d (.throw .noState)
  | fwS (p : Nat) (hp : p < d.nst) : SS run destroy v d rv (.fwIn? (some p)) d (.goto (.fwIn p))
  | fwBad (p : Nat) : SS run destroy v d rv (.fwIn? (some p)) d .terminate
  | fwIn (p : Nat) (h : d.lk (.guard p) = none) :
      SS run destroy v d rv (.fwIn p) (d.setLk (.guard p) (some v.tid)) (.goto (.fwLoop p))
  | fwOk (p : Nat) (h : d.ready p = true) : SS run destroy v d rv (.fwLoop p) (d.setLk (.guard p) none) (.ret .unit)
  | fwNot (p : Nat) (h : d.ready p = false) : SS run destroy v d rv (.fwLoop p) d (.goto (.fwChk p))
  | fwExit (p : Nat) (h : v.exit = true) : SS run destroy v d rv (.fwChk p) (d.setLk (.guard p) none) (.ret .unit)
  | fwStay (p : Nat) (h : v.exit = false) : SS run destroy v d rv (.fwChk p) d (.goto (.swIn (.fw p)))
  | fvN (dur : Int) : SS run destroy v d rv (.fvIn? none dur) d (.throw .noState)
  | fvS (p : Nat) (dur : Int) (hp : p < d.nst) : SS run destroy v d rv (.fvIn? (some p) dur) d (.goto (.fvIn p dur))
  | fvBad (p : Nat) (dur : Int) : SS run destroy v d rv (.fvIn? (some p) dur) d .terminate
  | fvIn (p : Nat) (dur : Int) (h : d.lk (.guard p) = none) :
      SS run destroy v d rv (.fvIn p dur) (d.setLk (.guard p) (some v.tid)) (.goto (.fvLoop p dur))
  | fvOk (p : Nat) (dur : Int) (h : d.ready p = true) :
      SS run destroy v d rv (.fvLoop p dur) (d.setLk (.guard p) none) (.ret (.fs .ready))
  | fvNot (p : Nat) (dur : Int) (h : d.ready p = false) : SS run destroy v d rv (.fvLoop p dur) d (.goto (.fvChk p dur))
  | fvExit (p : Nat) (dur : Int) (h : v.exit = true) :
      SS run destroy v d rv (.fvChk p dur) (d.setLk (.guard p) none) (.ret (.fs .deferred))
  | fvStay (p : Nat) (dur : Int) (h : v.exit = false) : SS run destroy v d rv (.fvChk p dur) d (.goto (.wfIn (.fv p dur) dur))
  | fvTime (p : Nat) (dur : Int) :
      SS run destroy v d rv (.fvRes p dur true) (d.setLk (.guard p) none) (.ret (.fs .timeout))
  | fvAgain (p : Nat) (dur : Int) : SS run destroy v d rv (.fvRes p dur false) d (.goto (.fvLoop p dur))
  | fgN : SS run destroy v d rv (.fgIn? none) d (.throw .noState)
  | fgS (p : Nat) (hp : p < d.nst) : SS run destroy v d rv (.fgIn? (some p)) d (.push (.fwIn p) (.fgVal p))
  | fgBad (p : Nat) : SS run destroy v d rv (.fgIn? (some p)) d .terminate
  | fgVoidE (p : Nat) (e : Exn) (hv : (d.st p).isVoid = true) (h : (d.st p).exn = some e) :
      SS run destroy v d rv (.fgVal p) d (.throw e)
  | fgVoid (p : Nat) (hv : (d.st p).isVoid = true) (h : (d.st p).exn = none) : SS run destroy v d rv (.fgVal p) d (.ret .unit)
  | fgVal (p : Nat) (w : Val) (hv : (d.st p).isVoid = false) (hl : d.lk (.guard p) = none) (h : (d.st p).value = some w) :
      SS run destroy v d rv (.fgVal p) d (.ret w)
  | fgExn (p : Nat) (e : Exn) (hv : (d.st p).isVoid = false) (hl : d.lk (.guard p) = none) (h : (d.st p).value = none)
      (he : (d.st p).exn = some e) : SS run destroy v d rv (.fgVal p) d (.throw e)
  | fgNone (p : Nat) (hv : (d.st p).isVoid = false) (hl : d.lk (.guard p) = none) (h : (d.st p).value = none)
      (he : (d.st p).exn = none) : SS run destroy v d rv (.fgVal p) d (.throw .brokenPromise)
  | frN : SS run destroy v d rv (.frIn none) d (.throw .noState)
  | frS (p : Nat) (hp : p < d.nst) : SS run destroy v d rv (.frIn (some p)) d (.ret (.bool (d.ready p)))
  | frBad (p : Nat) : SS run destroy v d rv (.frIn (some p)) d .terminate
  | feN : SS run destroy v d rv (.feIn none) d (.throw .noState)
  | feS (p : Nat) (hp : p < d.nst) : SS run destroy v d rv (.feIn (some p)) d (.ret (.bool (decide ((d.st p).status = .error))))
  | feBad (p : Nat) : SS run destroy v d rv (.feIn (some p)) d .terminate
  | thN (id : Nat) (as b : Bool) (a : α) : SS run destroy v d rv (.thIn none id as b a) d (.throw .noState)
  | thBad (p id : Nat) (as b : Bool) (a : α) : SS run destroy v d rv (.thIn (some p) id as b a) d .terminate
  | thS (p id : Nat) (as b : Bool) (a : α) (hp : p < d.nst) : SS run destroy v d rv (.thIn (some p) id as b a)
      (d.mkState v.tid { isVoid := b, retrieved := true, owner := .pkg, req := some ⟨id, as, d.nst, a⟩ }) (.push (.scIn p ⟨id, as, d.nst, a⟩) (.done (.nat d.nst)))
  | asIn (id : Nat) (as b : Bool) (a : α) : SS run destroy v d rv (.asIn id as b a)
      (d.mkState v.tid { isVoid := b, retrieved := true, owner := .pkg, req := some ⟨id, as, d.nst, a⟩ }) (.goto (.laIn .as ⟨id, as, d.nst, a⟩))
  | pkIn (q : Nat) (b : Bool) : SS run destroy v d rv (.pkIn q b)
      (d.mkState v.tid { isVoid := b, retrieved := true, owner := .ext, home := q }) (.ret (.nat d.nst))

theorem takeLk_ss {d d' : SData α} {t : Nat} {L : Option Lk} {f : SFrame α φ} {a : Act (STask α) (SFrame α φ)}
    (h : takeLk d t L f = some (d', a)) : (L = none ∧ d' = d ∧ a = .goto f) ∨
      ∃ l, L = some l ∧ d.lk l = none ∧ d' = d.setLk l (some t) ∧ a = .goto f := by
  unfold takeLk at h
  split at h
  · simp only [Option.some.injEq, Prod.mk.injEq] at h; exact .inl ⟨rfl, h.1.symm, h.2.symm⟩
  · split at h
    · contradiction
    · rename_i l hl
      simp only [Option.some.injEq, Prod.mk.injEq] at h
      exact .inr ⟨l, rfl, by simpa using hl, h.1.symm, h.2.symm⟩

set_option maxHeartbeats 4000000 in
theorem sstep_ss {run destroy : α → φ} {v : View} {d d' : SData α} {rv : Val} {f : SFrame α φ} {a : Act (STask α) (SFrame α φ)}
    (h : sstep run destroy v d f rv = some (d', a)) : SS run destroy v d rv f d' a := by
  cases f
  case swAfter w i k =>
    simp only [sstep] at h
    rcases takeLk_ss h with ⟨h1, rfl, rfl⟩ | ⟨l, h1, h2, rfl, rfl⟩
    · exact .swAfterN _ _ _ h1
    · exact .swAfterL _ _ _ _ h1 h2
  case wfAfter w i k e =>
    simp only [sstep] at h
    rcases takeLk_ss h with ⟨h1, rfl, rfl⟩ | ⟨l, h1, h2, rfl, rfl⟩
    · exact .wfAfterN _ _ _ _ h1
    · exact .wfAfterL _ _ _ _ _ h1 h2
  case laIn K c =>
    simp only [sstep] at h
    by_cases h1 : c.async = true
    · simp only [h1, if_true, Option.some.injEq, Prod.mk.injEq] at h
      obtain ⟨rfl, rfl⟩ := h
      rw [← h1]; exact .laQueue _ _ _ rfl (.inl h1)
    · by_cases h2 : v.id = if c.id = 0 then v.id else c.id
      · rw [if_neg h1, if_pos h2] at h
        simp only [Option.some.injEq, Prod.mk.injEq] at h
        obtain ⟨rfl, rfl⟩ := h
        exact .laInl _ _ _ rfl (by simpa using h1) h2
      · rw [if_neg h1, if_neg h2] at h
        simp only [Option.some.injEq, Prod.mk.injEq] at h
        obtain ⟨rfl, rfl⟩ := h
        exact .laQueue _ _ _ rfl (.inr h2)
  case wfRem w i b k y =>
    cases w <;> simp only [sstep, Option.some.injEq, Prod.mk.injEq] at h <;> obtain ⟨rfl, rfl⟩ := h <;> constructor
  case swRem w i k y =>
    cases w <;> simp only [sstep, Option.some.injEq, Prod.mk.injEq] at h <;> obtain ⟨rfl, rfl⟩ := h <;> constructor
  case nLoop K l =>
    cases l with
    | nil => cases K <;> simp only [sstep, Option.some.injEq, Prod.mk.injEq] at h <;> obtain ⟨rfl, rfl⟩ := h <;> constructor
    | cons x l =>
      obtain ⟨i, k⟩ := x
      simp only [sstep] at h
      split at h <;> simp only [Option.some.injEq, Prod.mk.injEq] at h <;> obtain ⟨rfl, rfl⟩ := h
      · rename_i hi; subst hi; exact .nSkip _ _ _
      · exact .nSig _ _ _ _ ‹_›
  case svChk p r =>
    cases r <;> simp only [sstep] at h <;> split at h <;> simp only [Option.some.injEq, Prod.mk.injEq] at h <;> obtain ⟨rfl, rfl⟩ := h
    · exact .svBad _ _ ‹_›
    · rename_i h; exact .svVal _ _ (by simpa using h)
    · exact .svBad _ _ ‹_›
    · rename_i h; exact .svExn _ _ (by simpa using h)
  case srSet p r =>
    cases r <;> simp only [sstep, Option.some.injEq, Prod.mk.injEq] at h <;> obtain ⟨rfl, rfl⟩ := h <;> constructor
  case srLoop p dn l =>
    cases l <;> simp only [sstep, Option.some.injEq, Prod.mk.injEq] at h <;> obtain ⟨rfl, rfl⟩ := h <;> constructor
  case srDtor p dn =>
    cases dn <;> simp only [sstep, Option.some.injEq, Prod.mk.injEq] at h <;> obtain ⟨rfl, rfl⟩ := h <;> constructor
  case fvRes p dur b =>
    cases b <;> simp only [sstep, Option.some.injEq, Prod.mk.injEq, if_true, if_false, Bool.false_eq_true] at h <;> obtain ⟨rfl, rfl⟩ := h <;> constructor
  case rtIn p a =>
    simp only [sstep] at h
    split at h <;> simp only [Option.some.injEq, Prod.mk.injEq] at h <;> obtain ⟨rfl, rfl⟩ := h
    · rename_i h; exact .rtIn _ _ h.1 h.2
    · exact .rtBad _ _
  case dtIn p a =>
    simp only [sstep] at h
    split at h <;> simp only [Option.some.injEq, Prod.mk.injEq] at h <;> obtain ⟨rfl, rfl⟩ := h
    · rename_i h; exact .dtIn _ _ h.1 h.2
    · exact .dtBad _ _
  case poMove q q' =>
    simp only [sstep] at h
    split at h <;> simp only [Option.some.injEq, Prod.mk.injEq] at h <;> obtain ⟨rfl, rfl⟩ := h
    · rename_i h; subst h; exact .poSelf _
    · exact .poMove _ _ ‹_›
  case fgVal p =>
    simp only [sstep] at h
    repeat' (split at h)
    all_goals first | contradiction | (simp only [Option.some.injEq, Prod.mk.injEq] at h; obtain ⟨rfl, rfl⟩ := h)
    · exact .fgVoidE _ _ ‹_› ‹_›
    · exact .fgVoid _ ‹_› ‹_›
    · exact .fgVal _ _ (by simp_all) (by simp_all) ‹_›
    · exact .fgExn _ _ (by simp_all) (by simp_all) ‹_› ‹_›
    · exact .fgNone _ (by simp_all) (by simp_all) ‹_› ‹_›
  all_goals
    simp only [sstep] at h
    repeat' (split at h)
    all_goals first | contradiction | (simp only [Option.some.injEq, Prod.mk.injEq] at h; obtain ⟨rfl, rfl⟩ := h)
    all_goals constructor
    all_goals first | assumption | (simp_all; done)

/-- A step of the client is a step of the application or of this layer. -/
inductive CS (A : App α φ δ χ) (v : View) (d : Data α δ) (rv : Val) (ch : Ch χ) : SFrame α φ → Data α δ → Act (STask α) (SFrame α φ) → Prop
  | app (g : φ) (ad : δ) (a : SAct α φ) (h : A.step v d.ad g rv ch = some (ad, a)) :
      CS A v d rv ch (.app g) { d with ad := ad } (liftAct a)
  | sync (f : SFrame α φ) (sd : SData α) (a : Act (STask α) (SFrame α φ)) (h : SS A.run A.destroy v d.sd rv f sd a) :
      CS A v d rv ch f { d with sd := sd } a

theorem client_cs {A : App α φ δ χ} {v : View} {d d' : Data α δ} {rv : Val} {ch : Ch χ} {f : SFrame α φ}
    {a : Act (STask α) (SFrame α φ)} (h : (client A).step v d f rv ch = some (d', a)) : CS A v d rv ch f d' a := by
  by_cases hf : ∃ g, f = .app g
  · obtain ⟨g, rfl⟩ := hf
    simp only [client] at h
    split at h
    · contradiction
    · simp only [Option.some.injEq, Prod.mk.injEq] at h
      obtain ⟨rfl, rfl⟩ := h
      exact .app _ _ _ ‹_›
  · simp only [client] at h
    split at h
    · exact absurd ⟨_, rfl⟩ hf
    · split at h
      · split at h
        · contradiction
        · simp only [Option.some.injEq, Prod.mk.injEq] at h
          obtain ⟨rfl, rfl⟩ := h
          exact .sync _ _ _ (sstep_ss ‹_›)
      · contradiction

theorem SS.not_app {run destroy : α → φ} {v : View} {d d' : SData α} {rv : Val} {g : φ} {a : Act (STask α) (SFrame α φ)}
    (h : SS run destroy v d rv (.app g) d' a) : False := by cases h

end
end Sync
end Itc
