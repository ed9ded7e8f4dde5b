import Verif.Props.ManyColor
import Verif.Props.ManyUb
/-!
# C99 for what a document configured
-/
namespace Soralog
namespace Many
open System.Conc (SinkCall)

variable {W : Yaml.World} {F : Nat} {what : Text} {c : Yaml.Configurator} {debug : Bool} {ord : List Nat → List Nat} {b : Bool}
  {r : Yaml.Result} {y : Yaml.St} {E : Whole.Env} {format : System.Conc.Rec → Text} {fmt : System.Conc.Rec → FmtResult}

/-- a thread that only logs through loggers with sinks goes through no null pointer -/
theorem uses_out {G : Text → Text} {t : Tid} {s s' : System.Conc.St} {new : List LogCall} (hl : ∀ i, i < s.sys.nloggers → (s.sys.lgr i).sink.isSome = true)
    (hp : LogPc s.sys (s.pc t)) (hu : Uses G t s new s') : ∃ l, s'.out = s.out ++ l ∧ ∀ u, SinkCall.null u ∉ l := by
  have hnil : ∃ l, s.out = s.out ++ l ∧ ∀ u, SinkCall.null u ∉ l := ⟨[], (List.append_nil _).symm, fun u e => by cases e⟩
  cases hu with
  | step hi =>
    unfold System.Conc.step
    cases hpc : s.pc t with
    | log1 i rec => dsimp only; split <;> exact hnil
    | log2 i rec =>
      rw [hpc] at hp
      obtain ⟨k, hk⟩ := Option.isSome_iff_exists.1 (hl i hp.1)
      dsimp only
      rw [hk]
      exact ⟨[.push t k rec], rfl, fun u e => by cases e with | tail _ e => cases e⟩
    | log3 i => exact hnil
    | log4 i =>
      rw [hpc] at hp
      obtain ⟨k, hk⟩ := Option.isSome_iff_exists.1 (hl i hp)
      dsimp only
      rw [hk]
      exact ⟨[.flush t k], rfl, fun u e => by cases e with | tail _ e => cases e⟩
    | idle => exact hnil
    | _ => rw [hpc] at hp; exact hp.elim
  | _ => exact hnil

/-- **C99**, for what a document configured.  If no multisink of the document is without underlying sinks and every group the program uses has a sink (its own or
one it inherits), then, whatever the threads that only log do: no log call goes through a null pointer; no slot of a queue is accessed out of range, before its
construction or after it has been given away, and no queue holds more than its capacity; and every record (of an event after 1970, of one of the first 2^64
threads) fits the staging buffer the document gave its console or file. -/
theorem C99_document (ho : ∀ l, (ord l).Perm l) (h : Yaml.configure W F what c (Yaml.new debug ord b) = .ok r y)
    (hn : ∀ k lv, y.specs k ≠ .multi lv []) {G : Text → Text} (hG : Registered y G)
    (hs : ∀ n g, y.sys.groups.find (G n) = some g → (y.sys.grp g).sink ≠ none) (S : Setup) (hS : S = setupOf E format fmt y.specs) :
    ∀ done, Reach S (configured S y.sys done) → ∀ calls s, Logging S G (configured S y.sys done) calls s →
      (∀ t, SinkCall.null t ∉ s.sys.out) ∧
      (∀ i, (s.leaf i).ub = false ∧ (s.leaf i).ring.ub = false ∧ (s.leaf i).ring.buf.size ≤ (S.leaf i).conc.capacity) ∧
      ∀ i cf, (y.specs i).cfg = some cf → Sink.Stream cf.kind → ∀ x ∈ acceptedBy (s.leaf i), 0 ≤ x.2.timestamp → x.2.threadNumber < 2 ^ 64 →
        ((Sink.Leaf.new cf (E.world i) true).record x.2).overflow = false ∧ ((Sink.Leaf.new cf (E.world i) true).record x.2).out.length ≤ cf.maxBuffer := by
  obtain ⟨hw, h0, _⟩ := configured_reach S (conf_reach ho h)
  have hSound : S.Sound := hS ▸ (C107_configured ho h).2 hn
  intro done hr calls s hl
  have hinv := logging_inv hG h0 hw hr hl
  refine ⟨?_, C99_queues S hSound.room s hinv.reach, fun i cf hc hk x hx h1 h2 => ?_⟩
  · clear hinv
    induction hl with
    | start => intro t e; cases e
    | @system calls new s t sys' hl ht hf hu ih =>
      have hinv := logging_inv hG h0 hw hr hl
      have hsinks : ∀ i, i < s.sys.sys.nloggers → (s.sys.sys.lgr i).sink.isSome = true := by
        intro i hi
        obtain ⟨g, hg, _, e⟩ := hinv.sys.lgr i hi
        rw [e, Option.isSome_iff_ne_none]
        exact hs _ g hg
      obtain ⟨l, e1, e2⟩ := uses_out hsinks (hinv.pcs t) hu
      intro u hm
      have hm : SinkCall.null u ∈ sys'.out := hm
      rw [e1] at hm
      rcases List.mem_append.1 hm with hm | hm
      · exact ih u hm
      · exact e2 u hm
    | @other calls s s' hl he hsys hsaid ih => intro u hm; rw [hsys] at hm; exact ih u hm
  · have hleaf : S.leaf i = leafOf (E.world i) (E.opened i) cf := by rw [hS]; exact setup_leaf hc
    have hroomy := conf_roomy h hc hk
    have key : 321 ≤ cf.maxBuffer ∧ 2 * cf.maxLen ≤ cf.maxBuffer := by
      unfold Whole.Roomy at hroomy
      cases hkind : cf.kind with
      | syslog => rw [hkind] at hk; exact hk.elim
      | nowhere => rw [hkind] at hk; exact hk.elim
      | _ => rw [hkind] at hroomy; exact hroomy
    have hb : Render.bufferSize cf.maxBuffer cf.maxLen = cf.maxBuffer := by
      unfold Render.bufferSize
      split
      · omega
      · rfl
    have hfit : ∀ color bf, let console := (Render.consoleRecord (E.world i).lt cf.ti color bf Render.Cache.init (Render.fresh cf.maxBuffer) x.2).1
        let file := (Render.fileRecord (E.world i).lt cf.ti Render.Cache.init (Render.fresh cf.maxBuffer) x.2).1
        console.overflow = false ∧ console.out.length ≤ cf.maxBuffer ∧ file.overflow = false ∧ file.out.length ≤ cf.maxBuffer := by
      intro color bf
      have := C99_records_fit S hSound s hinv.reach i (E.world i).lt cf.maxBuffer (.inl key.1) color bf x hx h1 h2
      dsimp only at this
      rw [hleaf] at this
      rw [show (leafOf (E.world i) (E.opened i) cf).maxLen = cf.maxLen from rfl, hb] at this
      exact this.2
    unfold Sink.Leaf.record
    rw [show (Sink.Leaf.new cf (E.world i) true).cfg = cf from rfl]
    cases hkind : cf.kind with
    | console color bf => exact ⟨(hfit color bf).1, (hfit color bf).2.1⟩
    | file => exact ⟨(hfit false false).2.2.1, (hfit false false).2.2.2⟩
    | syslog => rw [hkind] at hk; exact hk.elim
    | nowhere => rw [hkind] at hk; exact hk.elim

/-- **C98**, for what a document configured: at any moment of any execution in which the threads only log and no sink has been destroyed, all pending calls can be completed, with nobody
starting anything new; and then each sink has accepted from each thread exactly the messages the document says are owed for the calls made so far. -/
theorem C98_document (ho : ∀ l, (ord l).Perm l) (h : Yaml.configure W F what c (Yaml.new debug ord b) = .ok r y)
    (hn : ∀ k lv, y.specs k ≠ .multi lv []) {G : Text → Text} (hG : Registered y G) (S : Setup) (hS : S = setupOf E format fmt y.specs) :
    ∃ done, Lock.Reach S ⟨configured S y.sys done, none, none⟩ ∧ ∀ calls s, Logging S G (configured S y.sys done) calls s → (∀ i, (s.leaf i).owner = none) →
      ∃ s', Lock.Goes S ⟨s, none, none⟩ s' ∧ ∀ t, t ≠ SinkConc.workerTid → Lock.AtRest s' t ∧
        ∀ i, Matches (EventOf (S.leaf i)) (SinkFull.acceptedFrom t (s'.prog.leaf i)) (owedBy S y G t i calls) := by
  have hSound : S.Sound := hS ▸ (C107_configured ho h).2 hn
  obtain ⟨done, hr, hall⟩ := Lock.C112_configured ho h S
  refine ⟨done, hr, fun calls s hl hown => ?_⟩
  obtain ⟨s', h1, h2⟩ := Lock.C98_all_calls_can_end S hSound.room _ (hall G hG calls s hl) (fun _ i _ => hown i)
  refine ⟨s', h1, fun t ht => ⟨h2 t ht, fun i => ?_⟩⟩
  have key : ∀ {a z : Lock.St}, Lock.Goes S a z → Logging S G (configured S y.sys done) calls a.prog → Logging S G (configured S y.sys done) calls z.prog := by
    intro a z hg
    induction hg with
    | refl => exact id
    | more hgo _ ih => exact fun hl => ih (Lock.logging_go hl hgo)
  exact C107_delivered ho h hn hG S hS done (Lock.reach_prog hr) calls s'.prog (key h1 hl) t (h2 t ht).1 (h2 t ht).2.1 i

theorem con_sinks (n : Text) (g : Nat) (h : conY.sys.groups.find (docG n) = some g) : (conY.sys.grp g).sink ≠ none := by
  have e : conY.sys.groups.find ['a'] = some g := h
  rw [con_facts.2.2.2] at e
  cases e
  have : (conY.sys.grp 0).sink = some 1 := by unfold conY; decide +kernel
  rw [this]; intro e; cases e

/-- the document with the coloured console, two threads that log at once: the records of "one" and "two" fit -/
example : acceptedBy (conMid.2.leaf 1) ≠ [] ∧ ∀ x ∈ acceptedBy (conMid.2.leaf 1), ((Sink.Leaf.new conCfg (conEnv.world 1) true).record x.2).overflow = false := by
  obtain ⟨done, hr⟩ := (C107_configured (E := conEnv) (format := fun r => r.text) (fmt := fun r => .ok r.text) (fun _ => .refl _) con_conf).1
  have := C99_document (fun _ => .refl _) con_conf con_noEmpty con_registered con_sinks conS rfl done hr _ _ (conMid_logging done)
  refine ⟨fun e => ?_, fun x hx => (this.2.2 1 conCfg con_facts.2.2.1 trivial x hx (conMid_good x hx).1.1 (conMid_good x hx).1.2.2).1⟩
  have h1 := conMid_facts.2.1
  rw [e] at h1
  cases h1

/-- the document of C107, cut in the middle: thread 1 has not yet entered the sink, thread 2 is inside `push` -/
example : ¬ quiet ((Lock.docCut.2.leaf 1).pc 2) ∧ ∃ done s', Lock.Goes docS ⟨withDone done Lock.docCut.2, none, none⟩ s' ∧ Lock.AtRest s' 2 ∧
    Matches (EventOf (docS.leaf 1)) (SinkFull.acceptedFrom 2 (s'.prog.leaf 1)) [⟨['l'], .warn, "two".toList, .ok "two".toList⟩] := by
  obtain ⟨done, _, hall⟩ := C98_document (E := fileEnv) (format := fun r => r.text) (fmt := fun r => .ok r.text) (fun _ => .refl _) doc_conf doc_noEmpty doc_registered docS rfl
  obtain ⟨s', h1, h2⟩ := hall _ _ (Lock.docCut_logging done) Lock.docCut_owner
  have h3 := (h2 2 (by decide)).2 1
  rw [Lock.docCut_owed.2] at h3
  exact ⟨Lock.docCut_facts.2.1, done, s', h1, (h2 2 (by decide)).1, h3⟩

end Many
end Soralog
