import Verif.Pool.Over
import Verif.Props.Launch

/-!
# Thread pool: the worker that took a job is the thread that executes it (proof infrastructure, no claims)
-/
namespace Itc
namespace Pool
open Core Sync
section
variable {α φ δ χ : Type}

/-- Thread `t` took the job. -/
def TookBy (ad : PData α δ) (t : Nat) (c : Call α) : Prop := ∃ i L id h, .took t i L id c h ∈ ad.plog

def fr (ad : PData α δ) (t : Nat) : PFrame α φ → Prop
  | .ckUnl _ _ (some c) => TookBy ad t c
  | .ckGo _ _ (some c) => TookBy ad t c
  | .inRun u _ => ∃ c, TookBy ad t c ∧ c.u = u
  | _ => True

def nInner : PTask α → Prop
  | .inner _ _ => False
  | _ => True

def rr (d : SData (PTask α)) (ad : PData α δ) (t p : Nat) : PTask α → Prop
  | .inner u _ => ∃ c, TookBy ad t c ∧ c.u = u ∧ c.p = p
  | _ => p < d.nst ∧ ((d.st p).owner = .ext → ∃ c, TookBy ad t c ∧ (c.u = p ∨ c.p = p))

variable {d d' : SData (PTask α)} {ad ad' : PData α δ}

theorem TookBy.mono (h : ∀ e ∈ ad.plog, e ∈ ad'.plog) {t : Nat} {c : Call α} : TookBy ad t c → TookBy ad' t c :=
  fun ⟨i, L, id, x, hm⟩ => ⟨i, L, id, x, h _ hm⟩

theorem fr_mono (h : ∀ e ∈ ad.plog, e ∈ ad'.plog) {t : Nat} {f : PFrame α φ} (hf : fr ad t f) : fr ad' t f := by
  cases f <;> first | trivial | skip
  case ckUnl i id c => cases c <;> first | trivial | exact TookBy.mono h hf
  case ckGo i id c => cases c <;> first | trivial | exact TookBy.mono h hf
  case inRun u a => obtain ⟨c, h1, h2⟩ := hf; exact ⟨c, h1.mono h, h2⟩

theorem rr_mono (he : Ext d d') (h : ∀ e ∈ ad.plog, e ∈ ad'.plog) {t p : Nat} {a : PTask α} (hx : rr d ad t p a) : rr d' ad' t p a := by
  have key : (p < d.nst ∧ ((d.st p).owner = .ext → ∃ c, TookBy ad t c ∧ (c.u = p ∨ c.p = p))) →
      (p < d'.nst ∧ ((d'.st p).owner = .ext → ∃ c, TookBy ad' t c ∧ (c.u = p ∨ c.p = p))) := by
    rintro ⟨h1, h2⟩
    refine ⟨lt_mono he h1, fun ho => ?_⟩
    obtain ⟨c, h3, h4⟩ := h2 (by rw [← he.owner h1]; exact ho)
    exact ⟨c, h3.mono h, h4⟩
  cases a with
  | inner u b => obtain ⟨c, h1, h2⟩ := hx; exact ⟨c, h1.mono h, h2⟩
  | usr b => exact key hx
  | check x => exact key hx

def prn (U : PApp α φ δ χ) (u0 : δ) (f0 : φ) : AT (poolApp U) { u := u0 } (.usr f0) where
  W _ _ _ a := nInner a
  L _ _ a := nInner a
  F _ ad t f := fr ad t f
  Q _ _ _ := True
  G _ _ _ _ := True
  R d ad t p a := rr d ad t p a
  D _ _ _ := True
  I _ _ := True
  mono he := ⟨id, id, id, id, id, id, fun h => rr_mono he (fun _ h => h) h, id⟩
  wl _ h _ := h
  run {d ad a} h t := by cases a <;> first | trivial | exact h.elim
  runR {d ad t p a} h := by cases a <;> first | trivial | (obtain ⟨c, h1, h2, -⟩ := h; exact ⟨c, h1, h2⟩)
  des {d ad a} _ t := by cases a <;> trivial
  rl {d ad p a} hp ho h t := by cases a <;> first | exact h.elim | exact ⟨hp, fun h => by rw [ho] at h; cases h⟩
  dl _ := trivial
  gset _ _ _ := trivial
  gdtor _ _ _ := trivial
  gpkg _ _ := trivial
  sync _ _ _ _ _ := trivial
  throw := by
    intro s t g g' rest e hj hst he hp h
    rcases pool_throw h with ⟨g, g', rfl, rfl⟩ | ⟨i, l, c, K, rfl, rfl⟩ | ⟨i, o, K, rfl, rfl⟩ | ⟨i, o, l, K, rfl, rfl⟩ <;> trivial
  app := by
    intro s t ch g rest ad' sa hr he hst hi hp hs
    have hle := plog_suf hs
    have hm : ∀ e ∈ s.data.ad.plog, e ∈ ad'.plog := fun e h => hle.subset h
    refine ⟨trivial, ⟨id, id, fr_mono hm, id, id, id, rr_mono (Ext.refl _) hm, id⟩, ?_⟩
    have lt : ∀ {c}, TookBy s.data.ad t c → c.u < s.data.sd.nst ∧ c.p < s.data.sd.nst := by
      rintro c ⟨i, L, id, h, hm⟩
      have := sch_ext hr (took_schd hr hm)
      exact ⟨this.1.1, this.2.1⟩
    cases pool_pc hs with
    | usr g ch u wa hU =>
      refine liftP_ok (fun _ _ => trivial) (fun _ _ => trivial) (fun _ => trivial) ?_ (fun _ => trivial) _ _
      intro t a; cases a <;> trivial
    | ck x d' id c hP =>
      cases hP <;> first | trivial | skip
      all_goals exact ⟨_, _, _, _, List.mem_cons_self ..⟩
    | ps f d' a hf hb hP =>
      generalize s.thr t = th at hP
      generalize s.view t = v at hP
      cases hP
      case ckUnl i id c => cases c <;> exact ⟨hp, trivial⟩
      case ckGo i id c => exact ⟨trivial, ⟨c, hp, rfl, rfl⟩, trivial⟩
      case inRun p a =>
        obtain ⟨c, h1, rfl⟩ := hp
        exact ⟨trivial, ⟨(lt h1).1, fun _ => ⟨c, h1, .inl rfl⟩⟩, trivial⟩
      all_goals first
        | trivial
        | exact ⟨trivial, trivial⟩
        | exact ⟨trivial, trivial, trivial⟩
        | exact ⟨trivial, fun _ => trivial⟩

variable {U : PApp α φ δ χ} {u0 : δ} {f0 : φ} {s s' : PSt α φ δ}

theorem prn_ok (hr : PR U u0 f0 s) : (prn U u0 f0).ty.Ok s := (prn U u0 f0).sound trivial trivial hr

/-- A thread that calls the task of a job took that job. -/
theorem runs_took (hr : PR U u0 f0 s) : ∀ t p, .bodyStart t p ∈ s.data.sd.slog → p < s.data.sd.nst ∧
    ((s.data.sd.st p).owner = .ext → ∃ c, TookBy s.data.ad t c ∧ (c.u = p ∨ c.p = p)) := by
  refine Reach.induct (fun s => ∀ t p, .bodyStart t p ∈ s.data.sd.slog → p < s.data.sd.nst ∧
    ((s.data.sd.st p).owner = .ext → ∃ c, TookBy s.data.ad t c ∧ (c.u = p ∨ c.p = p))) ?_ ?_ hr
  · intro t p h; simp [Core.init] at h
  · intro s l s' hr ih hs t p h
    cases l with
    | tick n => rw [step_tick _ s s' n hs] at h ⊢; exact ih t p h
    | th v ch =>
      have hx := step_ext hs
      have hm : ∀ e ∈ s.data.ad.plog, e ∈ s'.data.ad.plog := by
        cases mv hr hs with
        | app g rest sa he hst hd hact hA => obtain ⟨ch', hA⟩ := hA; exact fun e h => (plog_suf hA).subset h
        | sync f rest a he hst hS hact had => rw [had]; exact fun _ h => h
        | hand e f f' rest he hst hn hf hst' he' hd had => rw [had]; exact fun _ h => h
        | drop e f rest he hst hn hf hst' he' hd had => rw [had]; exact fun _ h => h
        | core f rest pre hst hpre hst' hd had => rw [had]; exact fun _ h => h
        | still hst' he' hd had => rw [had]; exact fun _ h => h
      have old : p < s.data.sd.nst ∧ ((s.data.sd.st p).owner = .ext → ∃ c, TookBy s.data.ad t c ∧ (c.u = p ∨ c.p = p)) := by
        by_cases h0 : .bodyStart t p ∈ s.data.sd.slog
        · exact ih t p h0
        · obtain ⟨rfl, a, rest, hst, -⟩ := C34_runs hs h h0
          have h1 : rr s.data.sd s.data.ad t p a := And.left ((prn_ok hr).fr t (.client (.ftRun p a)) (by rw [hst]; simp))
          cases a with
          | inner u b =>
            refine ⟨(ty1_top hr hst).1, fun _ => ?_⟩
            obtain ⟨c, h2, h3, h4⟩ := h1
            exact ⟨c, h2, .inr h4⟩
          | usr b => exact h1
          | check x => exact h1
      refine ⟨lt_mono hx old.1, fun ho => ?_⟩
      rw [hx.owner old.1] at ho
      obtain ⟨c, h1, h2⟩ := old.2 ho
      exact ⟨c, h1.mono hm, h2⟩

theorem job_took_by (hr : PR U u0 f0 s) {t i id : Nat} {c : Call α} (hc : Schd s.data.ad i id c) {p : Nat} (hp : p = c.u ∨ p = c.p) (h : .bodyStart t p ∈ s.data.sd.slog) :
    ∃ L hd, .took t i L id c hd ∈ s.data.ad.plog := by
  have hx := sch_ext hr hc
  obtain ⟨c', ⟨i', L, id', hd, h3⟩, h2⟩ := (runs_took hr t p h).2 (by rcases hp with rfl | rfl; exacts [hx.1.2, hx.2.2])
  obtain ⟨t2, g2, h4⟩ := took_schd hr h3
  obtain ⟨t3, g3, h5⟩ := hc
  obtain ⟨⟨-, rfl, rfl, rfl, -⟩, -⟩ := sch_uniq hr (x := p) h5 h4 (by grind) h2
  exact ⟨L, hd, h3⟩

end
end Pool
end Itc
