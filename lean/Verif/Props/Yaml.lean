import Verif.Proofs.YamlCalls
import Verif.Props.Render
/-!
# C47, C48, C53, C68, C69: what a document configures

See `Spec/Document.lean` for the meaning of documents.  `demo` builds worlds for the examples.
-/
namespace Soralog
namespace Yaml

open Soralog.System

/-! ## Documents for the examples -/

/-- the integers that occur in the examples -/
def someInts : List (Text × Int) :=
  [("0".toList, 0), ("2".toList, 2), ("8".toList, 8), ("64".toList, 64), ("100".toList, 100), ("500".toList, 500), ("-1".toList, -1)]

theorem someInts_range (t : Text) (i : Int) (h : (someInts.find? fun e => e.1 == t).map (·.2) = some i) : -2 ^ 31 ≤ i ∧ i < 2 ^ 31 := by
  cases hf : someInts.find? fun e => e.1 == t with
  | none => rw [hf] at h; cases h
  | some e =>
    rw [hf] at h
    cases h
    exact (by decide : ∀ e ∈ someInts, -2 ^ 31 ≤ e.2 ∧ e.2 < 2 ^ 31) e (List.mem_of_find?_eq_some hf)

/-- the first nodes are keys, the others are those of the document -/
def keyNodes : List Node :=
  [.scalar "name".toList, .scalar "type".toList, .scalar "level".toList, .scalar "sink".toList, .scalar "children".toList,
   .scalar "sinks".toList, .scalar "groups".toList, .scalar "capacity".toList, .scalar "buffer".toList,
   .scalar "max_message_length".toList, .scalar "latency".toList, .scalar "path".toList, .scalar "color".toList,
   .scalar "is_fallback".toList, .scalar "thread".toList, .scalar "unknown".toList]

/-- a world with these nodes; node 16 is the first of `nodes` -/
def demo (nodes : List Node) : World where
  node n := (keyNodes ++ nodes).getD n .null
  asInt t := (someInts.find? fun e => e.1 == t).map (·.2)
  asInt_range := someInts_range
  asBool t := if t = "true".toList then some true else if t = "false".toList then some false else none
  nullText := none
  alloc c := decide (c.maxBuffer < 2 ^ 63)
  alloc_max c h := of_decide_eq_true h
  boldFirst := false
  debugOff := false
  traceOff := false

/-- Document 16: two sinks (a console with parameters, a file), a node without type, and groups `a` > `b`, `a` > (no name),
(no name), `c`.  Document 27 is the same without the bad nodes at top level. -/
def demoDoc : World := demo [
  /- 16 -/ .map [(5, 17), (6, 18)],
  /- 17 -/ .seq [19, 20, 21],
  /- 18 -/ .seq [22, 26, 23],
  /- 19 -/ .map [(0, 30), (1, 31), (2, 32), (7, 33), (10, 34), (9, 35)],
  /- 20 -/ .map [(0, 36)],
  /- 21 -/ .map [(0, 37), (1, 38), (11, 39), (8, 40)],
  /- 22 -/ .map [(0, 41), (3, 30), (2, 42), (4, 24)],
  /- 23 -/ .map [(0, 43), (2, 32)],
  /- 24 -/ .seq [25, 26],
  /- 25 -/ .map [(0, 44), (13, 45)],
  /- 26 -/ .map [(2, 32)],
  /- 27 -/ .map [(5, 28), (6, 29)],
  /- 28 -/ .seq [19, 21],
  /- 29 -/ .seq [22, 23],
  /- 30 -/ .scalar "con".toList, .scalar "console".toList, .scalar "warn".toList, .scalar "8".toList, .scalar "100".toList,
  /- 35 -/ .scalar "64".toList, .scalar "bad".toList, .scalar "out".toList, .scalar "file".toList, .scalar "/tmp/log".toList,
  /- 40 -/ .scalar "500".toList, .scalar "a".toList, .scalar "info".toList, .scalar "c".toList, .scalar "b".toList,
  /- 45 -/ .scalar "true".toList]

/-- what an outcome shows -/
def Out.shows {α β : Type} (o : Out α) (f : α → St → β) : Option β :=
  match o with
  | .ok a s => some (f a s)
  | _ => none

/-- the configuration of `demoDoc` on a new system -/
def demoRun : Out Result := configure demoDoc 20 [] (.yaml (.document 16)) (new false id false)

example : demoRun.shows (fun r s => (r.error, r.warning, s.sys.nsinks, s.sys.ngroups)) = some (true, true, 3, 3) := by
  decide +kernel
example : demoRun.shows (fun _ s => s.specs 1) = some (.console false
    { kind := .console false false, level := .warn, ti := .none, capacity := 8, maxLen := 1024, maxBuffer := 2 ^ 17, latency := 100 }) := by
  decide +kernel
example : demoRun.shows (fun _ s => s.specs 2) = some (.file "/tmp/log".toList
    { kind := .file, level := .trace, ti := .none, capacity := 2048, maxLen := 1024, maxBuffer := 2048, latency := 1000 }) := by
  decide +kernel
example : demoRun.shows (fun _ s => s.sys.groups.map (·.1)) = some [star, "a".toList, "b".toList, "c".toList] := by decide +kernel

/-! ## C47 -/

/-- **C47**, the names.  The text names the level iff it is one of the eleven names of `levelNames`, with that level. -/
theorem C47_names (t : Text) (l : Level) : levelOf t = some l ↔ (t, l) ∈ levelNames := by
  constructor
  · intro h
    unfold levelOf at h
    simp only [levelNames, List.mem_cons, Prod.mk.injEq, List.not_mem_nil, or_false]
    split at h
    · rename_i h1; cases h; exact .inl ⟨h1, rfl⟩
    split at h
    · rename_i h1; cases h
      rcases h1 with h1 | h1
      · exact .inr (.inl ⟨h1, rfl⟩)
      · exact .inr (.inr (.inl ⟨h1, rfl⟩))
    split at h
    · rename_i h1; cases h; exact .inr (.inr (.inr (.inl ⟨h1, rfl⟩)))
    split at h
    · rename_i h1; cases h
      rcases h1 with h1 | h1
      · exact .inr (.inr (.inr (.inr (.inl ⟨h1, rfl⟩))))
      · exact .inr (.inr (.inr (.inr (.inr (.inl ⟨h1, rfl⟩)))))
    split at h
    · rename_i h1; cases h; exact .inr (.inr (.inr (.inr (.inr (.inr (.inl ⟨h1, rfl⟩))))))
    split at h
    · rename_i h1; cases h; exact .inr (.inr (.inr (.inr (.inr (.inr (.inr (.inl ⟨h1, rfl⟩)))))))
    split at h
    · rename_i h1; cases h
      rcases h1 with h1 | h1
      · exact .inr (.inr (.inr (.inr (.inr (.inr (.inr (.inr (.inl ⟨h1, rfl⟩))))))))
      · exact .inr (.inr (.inr (.inr (.inr (.inr (.inr (.inr (.inr (.inl ⟨h1, rfl⟩)))))))))
    split at h
    · rename_i h1; cases h; exact .inr (.inr (.inr (.inr (.inr (.inr (.inr (.inr (.inr (.inr ⟨h1, rfl⟩)))))))))
    · cases h
  · intro h
    simp only [levelNames, List.mem_cons, Prod.mk.injEq, List.not_mem_nil, or_false] at h
    rcases h with ⟨rfl, rfl⟩ | ⟨rfl, rfl⟩ | ⟨rfl, rfl⟩ | ⟨rfl, rfl⟩ | ⟨rfl, rfl⟩ | ⟨rfl, rfl⟩ | ⟨rfl, rfl⟩ | ⟨rfl, rfl⟩ | ⟨rfl, rfl⟩ |
      ⟨rfl, rfl⟩ | ⟨rfl, rfl⟩ <;> decide

example : ("warn".toList, Level.warn) ∈ levelNames ∧ levelOf "WARN".toList = none := by decide

theorem pre_app {a b c : Text} (h : a <+: b) : a <+: b ++ c := h.trans (List.prefix_append b c)

/-- **C47**, the property 'level' of a sink or a group.  If it is absent nothing is reported and there is no level; if it is one
of the names the result is that level and no error is reported; whatever else it is -- another text, a list, a map, null -- an
error is added to the problems, the error flag is set, and the result is as if it were absent. -/
theorem C47_property (W : World) (target : Text) (e : List (Nat × Nat)) (s : St) :
    (prop W e "level".toList = none → parseLevel W target e s = .ok none s) ∧
    (∀ t l, prop W e "level".toList = some (.scalar t) → (t, l) ∈ levelNames →
      ∃ s', parseLevel W target e s = .ok (some l) s' ∧ s'.hasError = s.hasError ∧ Quiet s s') ∧
    (∀ n, prop W e "level".toList = some n → (∀ t l, n = .scalar t → (t, l) ∉ levelNames) →
      ∃ p s', parseLevel W target e s = .ok none s' ∧ s'.errors = s.errors ++ [p] ∧ "E: ".toList <+: p.text ∧ s'.hasError = true ∧
        s'.hasWarning = s.hasWarning ∧ Quiet s s') := by
  refine ⟨fun h => ?_, fun t l h hl => ?_, fun n h hn => ?_⟩
  · unfold parseLevel; rw [h]; rfl
  · unfold parseLevel
    rw [h]
    simp only [(C47_names t l).2 hl]
    have hcond : ∀ (c : Prop) [Decidable c] (p : Problem) (s : St), ∃ s', (if c then warning p else pure () : M Unit) s = .ok () s' ∧
        s'.hasError = s.hasError ∧ Quiet s s' := by
      intro c _ p s
      split
      · exact ⟨_, rfl, rfl, rfl, rfl, rfl⟩
      · exact ⟨s, rfl, rfl, .refl _⟩
    obtain ⟨s1, h1, e1, q1⟩ := hcond (l = .debug ∧ W.debugOff = true) (.levelOff "debug".toList target) s
    obtain ⟨s2, h2, e2, q2⟩ := hcond (l = .trace ∧ W.traceOff = true) (.levelOff "trace".toList target) s1
    refine ⟨s2, ?_, e2.trans e1, q1.trans q2⟩
    rw [bind_def, h1]
    simp only
    rw [bind_def, h2]
    rfl
  · unfold parseLevel
    rw [h]
    cases n with
    | scalar t =>
      have hno : levelOf t = none := by
        cases hl : levelOf t with
        | none => rfl
        | some l => exact absurd ((C47_names t l).1 hl) (hn t l rfl)
      simp only [hno]
      exact ⟨.levelInvalid target t, _, rfl, rfl, pre_app (pre_app (pre_app (pre_app (by decide)))), rfl, rfl, rfl, rfl, rfl⟩
    | null => exact ⟨.levelNotScalar target, _, rfl, rfl, pre_app (pre_app (by decide)), rfl, rfl, rfl, rfl, rfl⟩
    | seq x => exact ⟨.levelNotScalar target, _, rfl, rfl, pre_app (pre_app (by decide)), rfl, rfl, rfl, rfl, rfl⟩
    | map x => exact ⟨.levelNotScalar target, _, rfl, rfl, pre_app (pre_app (by decide)), rfl, rfl, rfl, rfl, rfl⟩

/-- in `demoDoc` the console has the level written, the file the default one -/
example : prop demoDoc [(0, 30), (2, 32)] "level".toList = some (.scalar "warn".toList) ∧
    prop demoDoc [(0, 30), (2, 30)] "level".toList = some (.scalar "con".toList) := by decide

/-! ## C68: the sinks of a document -/

/-- **C68**.  If a document is processed to its end, the sinks of the system are those it had and, in order, exactly those that
the document declares (`Listed`), each with the parameters it declares; a name refers to the last sink declared with it. -/
theorem C68_sinks {W : World} {F root : Nat} {e : List (Nat × Nat)} (hroot : W.node root = .map e) {s s' : St} {r : Result}
    (h : applyOn W F (.yaml (.document root)) s = .ok r s') :
    ∃ ds, Listed W (listAt W e "sinks".toList) ds ∧
      Added ds (s.sys, s.specs)
        ({ s.sys with nsinks := s'.sys.nsinks, sinkName := s'.sys.sinkName, sinks := s'.sys.sinks }, s'.specs) := by
  obtain ⟨s1, s2, q1, h2, q3, _⟩ := runOn_ok h
  obtain ⟨sa, sb, sc, qa, ha, qb, eb, hc⟩ := (parse_ok h2).1 e hroot
  refine ⟨_, listed_of_ok ha, ?_⟩
  have h4 := sinkList_ok ha
  have h5 := added_foldl (declared W (listAt W e "sinks".toList)) (sa.sys, sa.specs)
  rw [← h4] at h5
  have qs := q1.trans qa
  rw [qs.1, qs.2.1] at h5
  have h6 := keepSinks_groups (fun h => by cases h) hc
  have h7 := (carries_groups W F F none _ 0 sc s2 (fun h => by cases h) hc).specs
  have e1 : s'.sys.nsinks = sb.sys.nsinks := by rw [q3.1, h6.1, qb.1]
  have e2 : s'.sys.sinks = sb.sys.sinks := by rw [q3.1, h6.2.1, qb.1]
  have e3 : s'.sys.sinkName = sb.sys.sinkName := by rw [q3.1, h6.2.2, qb.1]
  have e4 : s'.specs = sb.specs := by rw [q3.2.1, h7, qb.2.1]
  rw [e1, e2, e3, e4]
  have h8 := h5.rest
  simp only at h8
  rw [← h8]
  exact h5

/-- what a document declares is determined by the document -/
theorem C68_unique {W : World} {items : List Nat} {ds ds' : List (Text × Decl)} (h : Listed W items ds) (h' : Listed W items ds') :
    ds = ds' := h.unique h'

/-- the second sink node of `demoDoc` declares nothing -/
theorem demo_noType (d : Text × Decl) : ¬ NodeDeclares demoDoc 20 d := by
  rintro ⟨e, he, hd⟩
  have he' : e = [(0, 36)] := by cases he; rfl
  subst he'
  have hno : textAt demoDoc [(0, 36)] "type".toList = none := by decide
  cases hd with
  | console hn hs ht => rw [hno] at ht; cases ht
  | file hn hs ht hp => rw [hno] at ht; cases ht
  | syslog hn hs ht hp => rw [hno] at ht; cases ht
  | multi hn hs ht hi hm => rw [hno] at ht; cases ht

/-- a group node without name is not usable -/
theorem demo_noName (t : Table) (p : Option Text) (m : List (Nat × Nat)) (g : GroupNode) (hm : demoDoc.node 26 = .map m) :
    ¬ UsableGroup demoDoc t p m g := by
  intro h
  have hm' : m = [(2, 32)] := by cases hm; rfl
  subst hm'
  have hno : textAt demoDoc [(2, 32)] "name".toList = none := by decide
  rw [h.name] at hno
  cases hno

/-- the document of the example: two of its three sink nodes declare sinks -/
example : Listed demoDoc (listAt demoDoc [(5, 17), (6, 18)] "sinks".toList)
    [("con".toList, .console false (queueOf demoDoc [(0, 30), (1, 31), (2, 32), (7, 33), (10, 34), (9, 35)] true (.console false false))),
     ("out".toList, .file "/tmp/log".toList (queueOf demoDoc [(0, 37), (1, 38), (11, 39), (8, 40)] false .file))] := by
  have : listAt demoDoc [(5, 17), (6, 18)] "sinks".toList = [19, 20, 21] := by decide
  rw [this]
  refine .use ⟨[(0, 30), (1, 31), (2, 32), (7, 33), (10, 34), (9, 35)], rfl, ?_⟩ (.skip (fun d hd => ?_)
    (.use ⟨[(0, 37), (1, 38), (11, 39), (8, 40)], rfl, ?_⟩ .nil))
  · exact .console (n := "con".toList) (by decide) (by decide) (by decide)
  · exact demo_noType d hd
  · exact .file (n := "out".toList) (path := "/tmp/log".toList) (by decide) (by decide) (by decide) (by decide)
example : queueOf demoDoc [(0, 30), (1, 31), (2, 32), (7, 33), (10, 34), (9, 35)] true (.console false false) =
    { kind := .console false false, level := .warn, ti := .none, capacity := 8, maxLen := 1024, maxBuffer := 2 ^ 17, latency := 100 } := by
  decide
example : (applyOn demoDoc 20 (.yaml (.document 16)) (new false id false)).shows (fun _ s => s.sys.nsinks) = some 3 := by decide +kernel

/-! ## C48 -/

/-- **C48**, bounds.  Whatever is configured -- any document or sequence of documents, after the fallback or not, on any system,
also if an exception ends it -- every new sink with a queue has a capacity of at least 4, room for messages of at least 64 bytes,
and a buffer for at least four events (of 104 bytes) and two messages. -/
theorem C48_sane {W : World} {F : Nat} {what : Text} {c : Configurator} {s s' : St} {r : Result}
    (h : configure W F what c s = .ok r s') (k : Nat) (h1 : s.sys.nsinks ≤ k) (h2 : k < s'.sys.nsinks) (q : Sink.Cfg)
    (hq : (s'.specs k).cfg = some q) :
    4 ≤ q.capacity ∧ 64 ≤ q.maxLen ∧ 4 * 104 ≤ q.maxBuffer ∧ 2 * q.maxLen ≤ q.maxBuffer :=
  (configure_tri (newSane_applyOn W F c) h).2.2 k h1 h2 q hq

example : demoRun.shows (fun _ s => (s.specs 1).cfg.map fun q => (q.capacity, q.maxLen, q.maxBuffer)) =
    some (some (8, 1024, 2 ^ 17)) := by decide +kernel

/-- **C48**, values.  If the document is processed to its end, the parameters of each new sink are those of a map of the document
under 'sinks': `queueOf`, i.e. the numbers written there if they are acceptable, else the defaults. -/
theorem C48_values {W : World} {F root : Nat} {e : List (Nat × Nat)} (hroot : W.node root = .map e) {s s' : St} {r : Result}
    (h : applyOn W F (.yaml (.document root)) s = .ok r s') (k : Nat) (h1 : s.sys.nsinks ≤ k) (h2 : k < s'.sys.nsinks) (q : Sink.Cfg)
    (hq : (s'.specs k).cfg = some q) :
    ∃ n m console, n ∈ listAt W e "sinks".toList ∧ W.node n = .map m ∧
      textAt W m "type".toList = some (if console then "console".toList else if q.kind = .file then "file".toList else "syslog".toList) ∧
      q = queueOf W m console q.kind := by
  obtain ⟨ds, hl, ha⟩ := C68_sinks hroot h
  have hcount : s'.sys.nsinks = s.sys.nsinks + ds.length := ha.count
  obtain ⟨d, hd⟩ : ∃ d, ds[k - s.sys.nsinks]? = some d := ⟨ds[k - s.sys.nsinks]'(by omega), List.getElem?_eq_getElem _⟩
  obtain ⟨t, _, hspec⟩ := ha.spec _ d hd
  have hk : s.sys.nsinks + (k - s.sys.nsinks) = k := by omega
  simp only [hk] at hspec
  rw [hspec] at hq
  have hmem : d ∈ ds := List.mem_of_getElem? hd
  have hnode : ∀ {items ds}, Listed W items ds → d ∈ ds → ∃ n ∈ items, NodeDeclares W n d := by
    intro items ds hl hd
    induction hl with
    | nil => cases hd
    | use h _ ih =>
      rcases List.mem_cons.1 hd with rfl | hd
      · exact ⟨_, List.mem_cons_self, h⟩
      · obtain ⟨n, hn, h⟩ := ih hd; exact ⟨n, List.mem_cons_of_mem _ hn, h⟩
    | skip _ _ ih => obtain ⟨n, hn, h⟩ := ih hd; exact ⟨n, List.mem_cons_of_mem _ hn, h⟩
  obtain ⟨n, hn, m, hm, hdec⟩ := hnode hl hmem
  cases hdec with
  | console hn' hs ht => cases hq; exact ⟨n, m, true, hn, hm, ht, rfl⟩
  | file hn' hs ht hp => cases hq; exact ⟨n, m, false, hn, hm, ht, rfl⟩
  | syslog hn' hs ht hp => cases hq; exact ⟨n, m, false, hn, hm, ht, rfl⟩
  | multi => cases hq

/-- **C48**, numbers.  A number used is the default, or one that is written and acceptable. -/
theorem C48_numbers (W : World) (e : List (Nat × Nat)) (key : Text) (ok : Int → Text → Bool) (default : Nat) :
    (∃ t i, textAt W e key = some t ∧ W.asInt t = some i ∧ ok i t = true ∧ numberOr W e key ok default = i.toNat) ∨
    numberOr W e key ok default = default := by
  unfold numberOr
  cases ht : textAt W e key with
  | none => exact .inr rfl
  | some t =>
    cases hi : W.asInt t with
    | none => right; simp [hi]
    | some i =>
      simp only [Option.bind_some, hi, Option.map_some]
      by_cases ho : ok i t = true
      · left; exact ⟨t, i, rfl, hi, ho, by rw [if_pos ho]⟩
      · right; rw [if_neg ho]

/-- **C48**, consequence: for every sink so configured, records of all events fit its staging buffer (compare C09). -/
theorem C48_records_fit {W : World} {F : Nat} {what : Text} {c : Configurator} {s s' : St} {r : Result}
    (h : configure W F what c s = .ok r s') (k : Nat) (h1 : s.sys.nsinks ≤ k) (h2 : k < s'.sys.nsinks) (q : Sink.Cfg)
    (hq : (s'.specs k).cfg = some q) (lt : Render.LocalTime) (color boldFirst : Bool) (env : Env) (m : Msg)
    (henv : 0 ≤ env.now) (hnum : env.threadNumber < 2 ^ 64) :
    let ev := mkEvent env q.ti q.maxLen m
    (Render.consoleRecord lt q.ti color boldFirst Render.Cache.init (Render.fresh q.maxBuffer) ev).1.overflow = false ∧
    (Render.fileRecord lt q.ti Render.Cache.init (Render.fresh q.maxBuffer) ev).1.overflow = false := by
  have hs := C48_sane h k h1 h2 q hq
  have hb : Render.bufferSize q.maxBuffer q.maxLen = q.maxBuffer := by
    unfold Render.bufferSize
    split
    · omega
    · rfl
  have := Render.C09_records_fit lt q.maxBuffer q.maxLen (.inl (by omega)) q.ti color boldFirst env m henv hnum
  rw [hb] at this
  exact ⟨this.1.1, this.2.1⟩

/-! ## C69: a document is a sequence of calls -/

/-- **C69**.  Applying a document that is processed to its end is the same as creating the sinks it declares, in order, and then
making the calls its usable group nodes stand for (`GroupNode.calls`: create the group if there is none of that name, else set its
parent, sink and level; then make it the fallback group if asked), in document order, a group before the groups nested in it. -/
theorem C69_calls {W : World} {F root : Nat} {e : List (Nat × Nat)} (hroot : W.node root = .map e) {s s' : St} {r : Result}
    (h : applyOn W F (.yaml (.document root)) s = .ok r s') :
    ∃ ds y D, Listed W (listAt W e "sinks".toList) ds ∧ Added ds (s.sys, s.specs) (y, s'.specs) ∧
      Nests W y.sinks none (listAt W e "groups".toList) D ∧ Carried F D y s'.sys := by
  obtain ⟨s1, s2, q1, h2, q3, _⟩ := runOn_ok h
  obtain ⟨sa, sb, sc, qa, ha, qb, eb, hc⟩ := (parse_ok h2).1 e hroot
  have h4 := sinkList_ok ha
  have h5 := added_foldl (declared W (listAt W e "sinks".toList)) (sa.sys, sa.specs)
  rw [← h4] at h5
  have qs := q1.trans qa
  rw [qs.1, qs.2.1] at h5
  have h7 := carries_groups W F F none _ 0 sc s2 (fun h => by cases h) hc
  have h8 := nests_of_ok W F F none _ 0 sc s2 (fun h => by cases h) hc
  have e4 : s'.specs = sb.specs := by rw [q3.2.1, h7.specs, qb.2.1]
  refine ⟨_, sb.sys, declaredGroups W sc.sys.sinks F none (listAt W e "groups".toList), listed_of_ok ha, ?_, ?_, ?_⟩
  · rw [e4]; exact h5
  · rw [qb.1] at h8 ⊢; exact h8
  · have := h7.calls; rw [qb.1] at this ⊢; rw [q3.1]; exact this

/-- the usable group nodes of `demoDoc` -/
def demoA : GroupNode := { name := "a".toList, isFallback := false, sink := some "con".toList, level := some .info, children := some [25, 26] }
def demoB : GroupNode := { name := "b".toList, isFallback := true, sink := none, level := none, children := none }
def demoC : GroupNode := { name := "c".toList, isFallback := false, sink := some star, level := some .warn, children := none }

theorem demo_a (t : Table) (ht : (t.find "con".toList).isSome) : UsableGroup demoDoc t none [(0, 41), (3, 30), (2, 42), (4, 24)] demoA := by
  have h1 : prop demoDoc [(0, 41), (3, 30), (2, 42), (4, 24)] "is_fallback".toList = none := by decide
  have h2 : prop demoDoc [(0, 41), (3, 30), (2, 42), (4, 24)] "sink".toList = some (.scalar "con".toList) := by decide
  have h3 : prop demoDoc [(0, 41), (3, 30), (2, 42), (4, 24)] "children".toList = some (.seq [25, 26]) := by decide
  exact ⟨by decide, by decide, by rw [h1]; rfl, by rw [h2]; exact ⟨rfl, ht⟩, by decide, fun _ => by decide, by rw [h3]; rfl⟩

theorem demo_b (t : Table) : UsableGroup demoDoc t (some "a".toList) [(0, 44), (13, 45)] demoB := by
  have h1 : prop demoDoc [(0, 44), (13, 45)] "is_fallback".toList = some (.scalar "true".toList) := by decide
  have h2 : prop demoDoc [(0, 44), (13, 45)] "sink".toList = none := by decide
  have h3 : prop demoDoc [(0, 44), (13, 45)] "children".toList = none := by decide
  exact ⟨by decide, by decide, by rw [h1]; decide, by rw [h2]; rfl, by decide, fun h => (by cases h), by rw [h3]; rfl⟩

theorem demo_c (t : Table) : UsableGroup demoDoc t none [(0, 43), (2, 32)] demoC := by
  have h1 : prop demoDoc [(0, 43), (2, 32)] "is_fallback".toList = none := by decide
  have h2 : prop demoDoc [(0, 43), (2, 32)] "sink".toList = none := by decide
  have h3 : prop demoDoc [(0, 43), (2, 32)] "children".toList = none := by decide
  exact ⟨by decide, by decide, by rw [h1]; rfl, by rw [h2]; rfl, by decide, fun _ => by decide, by rw [h3]; rfl⟩

/-- both documents of `demoDoc` have the groups `a` > `b` and `c`, whatever the sinks are as long as `con` is one -/
theorem demo_nests (t : Table) (ht : (t.find "con".toList).isSome) :
    Nests demoDoc t none [22, 26, 23] [(none, demoA), (some "a".toList, demoB), (none, demoC)] ∧
    Nests demoDoc t none [22, 23] [(none, demoA), (some "a".toList, demoB), (none, demoC)] := by
  have hb : Nests demoDoc t (some "a".toList) [25, 26] [(some "a".toList, demoB)] :=
    .use (cs := []) (rest := []) (e := [(0, 44), (13, 45)]) rfl (demo_b t) .nil
      (.skip (fun e g he => demo_noName t (some "a".toList) e g he) .nil)
  have hc : Nests demoDoc t none [23] [(none, demoC)] :=
    .use (cs := []) (rest := []) (e := [(0, 43), (2, 32)]) rfl (demo_c t) .nil .nil
  constructor
  · exact .use (cs := [(some "a".toList, demoB)]) (rest := [(none, demoC)]) (e := [(0, 41), (3, 30), (2, 42), (4, 24)]) rfl (demo_a t ht) hb
      (.skip (fun e g he => demo_noName t none e g he) hc)
  · exact .use (cs := [(some "a".toList, demoB)]) (rest := [(none, demoC)]) (e := [(0, 41), (3, 30), (2, 42), (4, 24)]) rfl (demo_a t ht) hb hc

example : demoA.calls none false = [.makeGroup "a".toList none (some "con".toList) (some .info)] ∧
    demoB.calls (some "a".toList) false = [.makeGroup "b".toList (some "a".toList) none none, .setFallbackGroup "b".toList] ∧
    demoA.calls (some "x".toList) true =
      [.setParentOfGroup "a".toList "x".toList, .setSinkOfGroup "a".toList "con".toList, .setLevelOfGroup "a".toList .info] := ⟨rfl, rfl, rfl⟩

/-- a document whose root is not a map does nothing -/
theorem C69_not_map {W : World} {F root : Nat} (hroot : ∀ e, W.node root ≠ .map e) {s s' : St} {r : Result}
    (h : applyOn W F (.yaml (.document root)) s = .ok r s') : s'.sys = s.sys ∧ s'.specs = s.specs ∧ r.error = true := by
  obtain ⟨s1, s2, q1, h2, q3, he, _, _, _, hr⟩ := runOn_ok h
  have q2 := (parse_ok h2).2 hroot
  have q := (q1.trans q2).trans q3
  refine ⟨q.1, q.2.1, ?_⟩
  rw [hr]
  unfold parse at h2
  cases hn : W.node root with
  | map e => exact absurd hn (hroot e)
  | _ => rw [hn] at h2; cases h2; rfl

/-! ## C53 -/

/-- **C53**.  Nodes that declare nothing (sinks) or are not usable (groups at top level) can be left out: if the document is
processed to its end, so is the document with the lists without them, and the system is the same, whatever else was reported. -/
theorem C53_left_out {W : World} {F root root' : Nat} {e e' : List (Nat × Nat)} (hroot : W.node root = .map e)
    (hroot' : W.node root' = .map e') {sinks groups : List Nat} (p q : Nat → Bool)
    (h1 : prop W e "sinks".toList = some (.seq sinks)) (h2 : prop W e "groups".toList = some (.seq groups))
    (h1' : prop W e' "sinks".toList = some (.seq (sinks.filter p))) (h2' : prop W e' "groups".toList = some (.seq (groups.filter q)))
    (hkeys : ∀ x ∈ e', (asText W x.1).isSome) {s s' : St} {r : Result}
    (hp : ∀ n ∈ sinks, p n = false → ∀ d, ¬ NodeDeclares W n d)
    (hq : ∀ n ∈ groups, q n = false → ∀ m g, W.node n = .map m → ¬ UsableGroup W s'.sys.sinks none m g)
    (hF : F ≠ 0) (h : applyOn W F (.yaml (.document root)) s = .ok r s') :
    ∃ r' t', applyOn W F (.yaml (.document root')) s = .ok r' t' ∧ t'.sys = s'.sys ∧ t'.specs = s'.specs ∧ t'.syslogOpen = s'.syslogOpen := by
  obtain ⟨f, rfl⟩ : ∃ f, F = f + 1 := ⟨F - 1, by omega⟩
  obtain ⟨s1, s2, q1, hpar, q3, _⟩ := runOn_ok h
  obtain ⟨sa, sb, sc, qa, ha, qb, eb, hc⟩ := (parse_ok hpar).1 e hroot
  have l1 : listAt W e "sinks".toList = sinks := by unfold listAt; rw [h1]
  have l2 : listAt W e "groups".toList = groups := by unfold listAt; rw [h2]
  rw [l1] at ha
  rw [l2] at hc
  have hsk : sc.sys.sinks = s'.sys.sinks := by
    rw [q3.1, (keepSinks_groups (fun h => by cases h) hc).2.1]
  -- the other document
  let s0 : St := { s with errors := [], hasError := false, hasWarning := false }
  obtain ⟨t1, p1, hrun⟩ := parse_run (F := f + 1) h1' h2' hkeys s0
  have hqa : Quiet sa t1 := ((q1.trans qa).symm).trans (Quiet.trans ⟨rfl, rfl, rfl⟩ p1)
  have hsim := sinkList_filter W p sinks (fun n hn hpn => sink_useless_of_ok ha hn (hp n hn hpn)) 0 0 sa t1 hqa
  rw [ha] at hsim
  cases hb : parseSinkList W 0 (sinks.filter p) t1 with
  | throw _ => rw [hb] at hsim; exact hsim.elim
  | ub => rw [hb] at hsim; exact hsim.elim
  | diverge => rw [hb] at hsim; exact hsim.elim
  | ok _ tb =>
    rw [hb] at hsim
    have hqb : Quiet sc tb := qb.symm.trans hsim.2
    have hsim2 := groupList_filter W (f + 1) f none (fun h => by cases h) q groups 0 0 sc tb
      (fun n hn hqn => group_useless_of_ok (fun h => by cases h) hc hn (by rw [hsk]; exact hq n hn hqn)) hqb
    rw [hc] at hsim2
    cases hd : parseGroupList W (parseGroup W (f + 1) (f + 1) none) 0 (groups.filter q) tb with
    | throw _ => rw [hd] at hsim2; exact hsim2.elim
    | ub => rw [hd] at hsim2; exact hsim2.elim
    | diverge => rw [hd] at hsim2; exact hsim2.elim
    | ok _ td =>
      rw [hd] at hsim2
      have hq3 := q3.symm.trans hsim2.2
      suffices hex : ∃ r', applyOn W (f + 1) (.yaml (.document root')) s = .ok r' td by
        obtain ⟨r', hr'⟩ := hex
        exact ⟨r', td, hr', hq3.1, hq3.2.1, hq3.2.2⟩
      refine runOn_run ?_
      rw [hroot', hrun, bind_def, hb]
      exact hd

/-- the two documents of `demoDoc` meet the hypotheses: without sink node 20 and group node 26 the system is the same -/
example : demoDoc.node 16 = .map [(5, 17), (6, 18)] ∧ demoDoc.node 27 = .map [(5, 28), (6, 29)] ∧
    prop demoDoc [(5, 17), (6, 18)] "sinks".toList = some (.seq [19, 20, 21]) ∧
    prop demoDoc [(5, 28), (6, 29)] "sinks".toList = some (.seq ([19, 20, 21].filter (· != 20))) ∧
    prop demoDoc [(5, 17), (6, 18)] "groups".toList = some (.seq [22, 26, 23]) ∧
    prop demoDoc [(5, 28), (6, 29)] "groups".toList = some (.seq ([22, 26, 23].filter (· != 26))) ∧
    (∀ x ∈ [(5, 28), (6, 29)], (asText demoDoc x.1).isSome) ∧
    (∀ d, ¬ NodeDeclares demoDoc 20 d) ∧ (∀ t m g, demoDoc.node 26 = .map m → ¬ UsableGroup demoDoc t none m g) :=
  ⟨rfl, rfl, by decide, by decide, by decide, by decide, by decide, demo_noType, fun t m g h => demo_noName t none m g h⟩
example : ((applyOn demoDoc 20 (.yaml (.document 16)) (new false id false)).shows fun r s => (r.error, s.sys.nsinks, s.sys.ngroups)) =
      some (true, 3, 3) ∧
    ((applyOn demoDoc 20 (.yaml (.document 27)) (new false id false)).shows fun r s => (r.error, s.sys.nsinks, s.sys.ngroups)) =
      some (true, 3, 3) := by decide +kernel

/-- **C53**, in general.  Two documents that are processed to their end, declare the same sinks, and have the same usable group nodes
nested in the same groups in the same order, make the same system: whatever else they contain -- rejected nodes at any depth, with
all that is nested in them, unknown properties, unusable values -- has no effect. -/
theorem C53_same {W : World} {F root root' : Nat} {e e' : List (Nat × Nat)} (hroot : W.node root = .map e) (hroot' : W.node root' = .map e')
    {s s' t' : St} {r r' : Result} {ds : List (Text × Decl)} {D D' : List (Option Text × GroupNode)}
    (hs : Listed W (listAt W e "sinks".toList) ds) (hs' : Listed W (listAt W e' "sinks".toList) ds)
    (hg : Nests W s'.sys.sinks none (listAt W e "groups".toList) D) (hg' : Nests W s'.sys.sinks none (listAt W e' "groups".toList) D')
    (hD : D.map (fun d => (d.1, { d.2 with children := none })) = D'.map fun d => (d.1, { d.2 with children := none }))
    (h : applyOn W F (.yaml (.document root)) s = .ok r s') (h' : applyOn W F (.yaml (.document root')) s = .ok r' t') :
    s'.sys = t'.sys ∧ s'.specs = t'.specs := by
  have key : ∀ {root e s' r D}, W.node root = .map e → Listed W (listAt W e "sinks".toList) ds →
      applyOn W F (.yaml (.document root)) s = .ok r s' →
      Nests W ((ds.foldl addSink (s.sys, s.specs)).1.sinks) none (listAt W e "groups".toList) D →
      Carried F D (ds.foldl addSink (s.sys, s.specs)).1 s'.sys ∧ s'.specs = (ds.foldl addSink (s.sys, s.specs)).2 ∧
        s'.sys.sinks = (ds.foldl addSink (s.sys, s.specs)).1.sinks := by
    intro root e s' r D hroot hs h hg
    obtain ⟨s1, s2, q1, h2, q3, _⟩ := runOn_ok h
    obtain ⟨sa, sb, sc, qa, ha, qb, eb, hc⟩ := (parse_ok h2).1 e hroot
    have h4 := sinkList_ok ha
    rw [(listed_of_ok ha).unique hs, (q1.trans qa).1, (q1.trans qa).2.1] at h4
    have e1 : sb.sys = (ds.foldl addSink (s.sys, s.specs)).1 := congrArg Prod.fst h4
    have e2 : sb.specs = (ds.foldl addSink (s.sys, s.specs)).2 := congrArg Prod.snd h4
    have h7 := carries_groups W F F none _ 0 sc s2 (fun h => by cases h) hc
    have h8 := nests_of_ok W F F none _ 0 sc s2 (fun h => by cases h) hc
    have h9 := (keepSinks_groups (fun h => by cases h) hc).2.1
    rw [qb.1, e1] at h8 h9
    have h10 := h7.calls
    rw [qb.1, e1, h8.unique hg] at h10
    refine ⟨by rw [q3.1]; exact h10, ?_, ?_⟩
    · rw [q3.2.1, h7.specs, qb.2.1, e2]
    · rw [q3.1, h9]
  have hsk : s'.sys.sinks = (ds.foldl addSink (s.sys, s.specs)).1.sinks := by
    obtain ⟨s1, s2, q1, h2, q3, _⟩ := runOn_ok h
    obtain ⟨sa, sb, sc, qa, ha, qb, eb, hc⟩ := (parse_ok h2).1 e hroot
    have h4 := sinkList_ok ha
    rw [(listed_of_ok ha).unique hs, (q1.trans qa).1, (q1.trans qa).2.1] at h4
    rw [q3.1, (keepSinks_groups (fun h => by cases h) hc).2.1, qb.1]
    have e1 : sb.sys = (ds.foldl addSink (s.sys, s.specs)).1 := congrArg Prod.fst h4
    rw [e1]
  rw [hsk] at hg hg'
  obtain ⟨c1, c2, _⟩ := key hroot hs h hg
  obtain ⟨d1, d2, _⟩ := key hroot' hs' h' hg'
  exact ⟨c1.unique d1 hD, c2.trans d2.symm⟩

/-- the hypotheses are met by the documents 16 and 27 of `demoDoc`, whose usable nodes are those of `demo_nests` -/
example (t : Table) (ht : (t.find "con".toList).isSome) : ∃ D, Nests demoDoc t none (listAt demoDoc [(5, 17), (6, 18)] "groups".toList) D ∧
    Nests demoDoc t none (listAt demoDoc [(5, 28), (6, 29)] "groups".toList) D ∧ D.length = 3 := by
  have h1 : listAt demoDoc [(5, 17), (6, 18)] "groups".toList = [22, 26, 23] := by decide
  have h2 : listAt demoDoc [(5, 28), (6, 29)] "groups".toList = [22, 23] := by decide
  rw [h1, h2]
  exact ⟨_, (demo_nests t ht).1, (demo_nests t ht).2, rfl⟩
example : ((applyOn demoDoc 20 (.yaml (.document 16)) (new false id false)).shows fun _ s => (s.sys.sinks.find "con".toList).isSome) =
    some true := by decide +kernel

end Yaml
end Soralog
