import Verif.Proofs.YamlRel
import Verif.Spec.Document
/-!
# What the reading functions of the YAML configurator return

`Reading m r`: whatever the state, `m` only reports problems; it returns the value `r` or throws, as `r` says.
-/
namespace Soralog
namespace Yaml

open Soralog.System

theorem Quiet.refl (s : St) : Quiet s s := ⟨rfl, rfl, rfl⟩
theorem Quiet.trans {a b c : St} (h1 : Quiet a b) (h2 : Quiet b c) : Quiet a c :=
  ⟨h2.1.trans h1.1, h2.2.1.trans h1.2.1, h2.2.2.trans h1.2.2⟩
theorem Quiet.symm {a b : St} (h1 : Quiet a b) : Quiet b a := ⟨h1.1.symm, h1.2.1.symm, h1.2.2.symm⟩

/-- the outcome described by `r`, in the state `s` -/
def give {α : Type} (r : Option α) (s : St) : Out α :=
  match r with
  | some a => .ok a s
  | none => .throw s

def Reading {α : Type} (m : M α) (r : Sys → Option α) : Prop := ∀ s, ∃ s', Quiet s s' ∧ m s = give (r s.sys) s'

theorem Reading.pure {α : Type} (a : α) : Reading (Pure.pure a : M α) fun _ => some a := fun s => ⟨s, .refl s, rfl⟩
theorem Reading.throw {α : Type} : Reading (Yaml.throw : M α) fun _ => none := fun s => ⟨s, .refl s, rfl⟩
theorem Reading.report (p : Problem) : Reading (report p) fun _ => some () :=
  fun s => ⟨({ s with errors := s.errors ++ [p] }), ⟨rfl, rfl, rfl⟩, rfl⟩
theorem Reading.error (p : Problem) : Reading (error p) fun _ => some () :=
  fun s => ⟨({ s with errors := s.errors ++ [p], hasError := true }), ⟨rfl, rfl, rfl⟩, rfl⟩
theorem Reading.warning (p : Problem) : Reading (warning p) fun _ => some () :=
  fun s => ⟨({ s with errors := s.errors ++ [p], hasWarning := true }), ⟨rfl, rfl, rfl⟩, rfl⟩
theorem Reading.multiMissing (k n : Text) : Reading (multiMissing k n) fun _ => some () :=
  fun s => ⟨{ s with errors := s.errors ++ [.multiMissing k n], hasWarning := true }, ⟨rfl, rfl, rfl⟩, rfl⟩
theorem Reading.groupNoName (t : Text) : Reading (groupNoName t) fun _ => some () :=
  fun s => ⟨{ s with errors := s.errors ++ [.groupNoName t], hasError := true }, ⟨rfl, rfl, rfl⟩, rfl⟩
theorem Reading.lookSink (n : Text) : Reading (lookSink n) fun y => some (y.sinks.find n) := fun s => ⟨s, .refl s, rfl⟩

theorem Reading.bind {α β : Type} {m : M α} {r : Sys → Option α} {k : α → M β} {q : α → Sys → Option β} (hm : Reading m r)
    (hk : ∀ a, Reading (k a) (q a)) : Reading (m >>= k) fun y => (r y).bind fun a => q a y := by
  intro s
  obtain ⟨s1, h1, e1⟩ := hm s
  rw [bind_def, e1]
  cases hr : r s.sys with
  | none => exact ⟨s1, h1, by simp only [give, hr, Option.bind_none]⟩
  | some a =>
    obtain ⟨s2, h2, e2⟩ := hk a s1
    refine ⟨s2, h1.trans h2, ?_⟩
    rw [h1.1] at e2
    simp only [give, hr, Option.bind_some] at e2 ⊢
    exact e2

/-- a program that cannot throw followed by another -/
theorem Reading.seq {β : Type} {m : M Unit} {k : Unit → M β} {q : Sys → Option β} (hm : Reading m fun _ => some ())
    (hk : Reading (k ()) q) : Reading (m >>= k) q := by
  intro s
  obtain ⟨s1, h1, e1⟩ := hm s
  obtain ⟨s2, h2, e2⟩ := hk s1
  refine ⟨s2, h1.trans h2, ?_⟩
  rw [bind_def, e1]
  rw [h1.1] at e2
  exact e2

theorem Reading.congr {α : Type} {m : M α} {r q : Sys → Option α} (h : Reading m r) (he : ∀ y, r y = q y) : Reading m q := by
  intro s
  obtain ⟨s', h1, h2⟩ := h s
  exact ⟨s', h1, by rw [h2, he]⟩

theorem textAt_scalar {W : World} {entries : List (Nat × Nat)} {key t : Text} (h : prop W entries key = some (.scalar t)) :
    textAt W entries key = some t := by unfold textAt; rw [h]

theorem prop_of_textAt {W : World} {entries : List (Nat × Nat)} {key t : Text} (h : textAt W entries key = some t) :
    prop W entries key = some (.scalar t) := by
  unfold textAt at h
  split at h
  · rename_i t' h'; cases h; exact h'
  · cases h

/-- all keys of a map have a text -/
def keysOk (W : World) (entries : List (Nat × Nat)) : Option Unit :=
  if entries.all fun e => (asText W e.1).isSome then some () else none

theorem read_checkKeys (W : World) (known : List Text) (p : Text → Problem) (entries : List (Nat × Nat)) :
    Reading (checkKeys W known p entries) fun _ => keysOk W entries := by
  induction entries with
  | nil => exact Reading.pure ()
  | cons e es ih =>
    unfold checkKeys
    cases hk : asText W e.1 with
    | none =>
      refine (Reading.throw.bind fun _ => ih).congr fun y => ?_
      simp [keysOk, hk]
    | some k =>
      have h1 : Reading (if known.contains k then Pure.pure () else warning (p k) : M Unit) fun _ => some () := by
        split
        · exact Reading.pure ()
        · exact Reading.warning _
      refine (Reading.seq h1 ih).congr fun y => ?_
      simp only [keysOk, List.all_cons, hk, Option.isSome_some, Bool.true_and]

/-- the level written, if it has a valid name -/
def levelAt (W : World) (entries : List (Nat × Nat)) : Option Level := (textAt W entries "level".toList).bind levelOf

theorem read_parseLevel (W : World) (target : Text) (entries : List (Nat × Nat)) :
    Reading (parseLevel W target entries) fun _ => some (levelAt W entries) := by
  unfold parseLevel levelAt textAt
  cases hp : prop W entries "level".toList with
  | none => exact Reading.pure _
  | some n =>
    cases n with
    | scalar t =>
      simp only [Option.bind_some]
      cases hl : levelOf t with
      | some l =>
        refine Reading.seq ?_ (Reading.seq ?_ (Reading.pure _))
        · split
          · exact Reading.warning _
          · exact Reading.pure ()
        · split
          · exact Reading.warning _
          · exact Reading.pure ()
      | none => exact Reading.seq (Reading.error _) (Reading.pure _)
    | _ => exact Reading.seq (Reading.error _) (Reading.pure _)

/-- what is written for 'thread' -/
def threadAt (W : World) (entries : List (Nat × Nat)) : ThreadInfo :=
  match textAt W entries "thread".toList with
  | some t => if t = "name".toList then .name else if t = "id".toList then .id else .none
  | none => .none

theorem read_parseThread (W : World) (name : Text) (entries : List (Nat × Nat)) :
    Reading (parseThread W name entries) fun _ => some (threadAt W entries) := by
  unfold parseThread threadAt textAt
  cases hp : prop W entries "thread".toList with
  | none => exact Reading.pure _
  | some n =>
    cases n with
    | scalar t =>
      simp only
      split
      · exact Reading.pure _
      · split
        · exact Reading.pure _
        · split
          · exact Reading.pure _
          · exact Reading.seq (Reading.warning _) (Reading.pure _)
    | _ => exact Reading.seq (Reading.warning _) (Reading.pure _)

/-- the number written, if it is accepted; outer `none`: it is not a number -/
def readNumber (W : World) (key : Text) (accept : Int → Text → Bool) (entries : List (Nat × Nat)) : Option (Option Nat) :=
  match textAt W entries key with
  | none => some none
  | some t => (W.asInt t).map fun i => if accept i t then some (toSize i) else none

theorem read_parseNumber (W : World) (key : Text) (accept : Int → Text → Bool) (wrong : Text → Problem)
    (entries : List (Nat × Nat)) :
    Reading (parseNumber W key accept wrong entries) fun _ => readNumber W key accept entries := by
  unfold parseNumber readNumber textAt
  cases hp : prop W entries key with
  | none => exact Reading.pure _
  | some n =>
    cases n with
    | scalar t =>
      simp only
      cases hi : W.asInt t with
      | none => exact Reading.throw
      | some i =>
        simp only [Option.map_some]
        split
        · exact Reading.pure _
        · exact Reading.seq (Reading.warning _) (Reading.pure _)
    | _ => exact Reading.seq (Reading.warning _) (Reading.pure _)

/-- the arguments of a constructor that are read; `none`: an exception -/
def readArgs (W : World) (console : Bool) (entries : List (Nat × Nat)) : Option Args :=
  (readNumber W "capacity".toList acceptCapacity entries).bind fun capacity =>
  (readNumber W "buffer".toList acceptBuffer entries).bind fun buffer =>
  (readNumber W "max_message_length".toList (acceptLength console) entries).bind fun maxLen =>
  (readNumber W "latency".toList acceptLatency entries).bind fun latency =>
  some { ti := threadAt W entries, capacity, maxLen, buffer, latency }

theorem read_parseArgs (W : World) (console : Bool) (name : Text) (entries : List (Nat × Nat)) :
    Reading (parseArgs W console name entries) fun _ => readArgs W console entries := by
  unfold parseArgs
  have h := Reading.bind (read_parseThread W name entries) fun ti =>
    Reading.bind (read_parseNumber W "capacity".toList acceptCapacity (.wrongValue "capacity".toList name) entries) fun c =>
    Reading.bind (read_parseNumber W "buffer".toList acceptBuffer (.wrongValue "buffer".toList name) entries) fun b =>
    Reading.bind (read_parseNumber W "max_message_length".toList (acceptLength console)
      (.wrongValue "max_message_length".toList name) entries) fun m =>
    Reading.bind (read_parseNumber W "latency".toList acceptLatency (.latencyWrong name) entries) fun l =>
    Reading.pure ({ ti, capacity := c, maxLen := m, buffer := b, latency := l } : Args)
  exact h

theorem read_warnIfExists (name : Text) : Reading (warnIfExists name) fun _ => some () := by
  unfold warnIfExists
  refine (Reading.bind (q := fun _ _ => some ()) (Reading.lookSink name) fun o => ?_).congr fun y => rfl
  split
  · exact Reading.warning _
  · exact Reading.pure ()

/-- outer `none`: an exception -/
def readColor (W : World) (entries : List (Nat × Nat)) : Option Bool :=
  match textAt W entries "color".toList with
  | none => some false
  | some t => W.asBool t

theorem read_parseColor (W : World) (entries : List (Nat × Nat)) : Reading (parseColor W entries) fun _ => readColor W entries := by
  unfold parseColor readColor textAt
  cases hp : prop W entries "color".toList with
  | none => exact Reading.pure _
  | some n =>
    cases n with
    | scalar t =>
      simp only
      cases hi : W.asBool t with
      | none => exact Reading.throw
      | some i => exact Reading.pure _
    | _ => exact Reading.seq (Reading.warning _) (Reading.pure _)

/-- 'stream' is stderr -/
def streamAt (W : World) (entries : List (Nat × Nat)) : Bool := textAt W entries "stream".toList == some "stderr".toList

theorem read_parseStream (W : World) (entries : List (Nat × Nat)) :
    Reading (parseStream W entries) fun _ => some (streamAt W entries) := by
  unfold parseStream streamAt textAt
  cases hp : prop W entries "stream".toList with
  | none => exact Reading.pure _
  | some n =>
    cases n with
    | scalar t =>
      simp only
      split
      · rename_i h'; subst h'; exact Reading.pure _
      · split
        · rename_i h'; subst h'; exact Reading.pure _
        · rename_i h'
          have : (some t == some "stderr".toList) = false := by
            cases hb : (some t == some "stderr".toList) with
            | false => rfl
            | true => exact absurd (Option.some.inj (eq_of_beq hb)) h'
          rw [this]
          exact Reading.seq (Reading.warning _) (Reading.pure _)
    | _ => exact Reading.seq (Reading.warning _) (Reading.pure _)

theorem read_parseNeeded (W : World) (key name : Text) (entries : List (Nat × Nat)) :
    Reading (parseNeeded W key name entries) fun _ => some (textAt W entries key) := by
  unfold parseNeeded textAt
  cases hp : prop W entries key with
  | none => exact Reading.seq (Reading.error _) (Reading.pure _)
  | some n =>
    cases n with
    | scalar t => exact Reading.pure _
    | _ => exact Reading.seq (Reading.error _) (Reading.pure _)

/-! ### sinks -/

theorem read_collect (name : Text) (ks : List Text) : Reading (collect name ks) fun y => some (ks.filterMap y.sinks.find) := by
  induction ks with
  | nil => exact Reading.pure []
  | cons k ks ih =>
    unfold collect
    refine Reading.congr (Reading.bind (q := fun o y => some (match o with
      | some i => i :: ks.filterMap y.sinks.find | none => ks.filterMap y.sinks.find)) (Reading.lookSink k) fun o => ?_) fun y => ?_
    · cases o with
      | none => exact Reading.seq (Reading.multiMissing k name) ih
      | some i => exact (Reading.bind ih fun rest => Reading.pure (i :: rest)).congr fun y => rfl
    · simp only [Option.bind_some]
      cases h : y.sinks.find k with
      | none => rw [List.filterMap_cons_none h]
      | some i => rw [List.filterMap_cons_some h]

/-- items of the list 'sinks' of a multisink -/
def itemsAt (W : World) (entries : List (Nat × Nat)) : Option (List Nat) :=
  match prop W entries "sinks".toList with
  | some (.seq items) => some items
  | _ => none

/-- What a node declares: outer `none`: an exception; inner `none`: nothing (unusable). -/
def readBody (W : World) (type : Text) (entries : List (Nat × Nat)) : Option (Option Decl) :=
  if type = "console".toList then
    (readColor W entries).bind fun color =>
    (readArgs W true entries).bind fun args =>
    (keysOk W entries).bind fun _ =>
    some (some (.console (streamAt W entries)
      (mkCfg (.console color W.boldFirst) ((levelAt W entries).getD .trace) consoleDefaults args)))
  else if type = "file".toList then
    (readArgs W false entries).bind fun args =>
    (keysOk W entries).bind fun _ =>
    some ((textAt W entries "path".toList).map fun path =>
      .file path (mkCfg .file ((levelAt W entries).getD .trace) fileDefaults args))
  else if type = "syslog".toList then
    (readArgs W false entries).bind fun args =>
    (keysOk W entries).bind fun _ =>
    some ((textAt W entries "ident".toList).map fun ident =>
      .syslog ident (mkCfg .syslog ((levelAt W entries).getD .trace) fileDefaults args))
  else if type = "multisink".toList then
    (keysOk W entries).bind fun _ =>
    match itemsAt W entries with
    | none => some none
    | some items => (items.mapM (asText W)).bind fun names =>
      some (some (.multi ((levelAt W entries).getD .trace) names))
  else some none

def readSink (W : World) (entries : List (Nat × Nat)) : Option (Option (Text × Decl)) :=
  match textAt W entries "name".toList, textAt W entries "type".toList with
  | some name, some type => if name = star then some none else (readBody W type entries).map fun o => o.map fun d => (name, d)
  | _, _ => some none

/-- `m` reads `r`, and creates the sink declared -/
def Creates (W : World) (m : M Unit) (r : Option (Option (Text × Decl))) : Prop :=
  ∀ s, ∃ s', Quiet s s' ∧ m s = match r with
    | none => .throw s'
    | some none => .ok () s'
    | some (some (n, d)) => createSink W n (d.resolve s.sys.sinks) s'

theorem Creates.bind {W : World} {α : Type} {m : M α} {r : Option α} {k : α → M Unit} {q : α → Option (Option (Text × Decl))}
    (hm : Reading m fun _ => r) (hk : ∀ a, Creates W (k a) (q a)) : Creates W (m >>= k) (r.bind q) := by
  intro s
  obtain ⟨s1, h1, e1⟩ := hm s
  rw [bind_def, e1]
  cases r with
  | none => exact ⟨s1, h1, rfl⟩
  | some a =>
    obtain ⟨s2, h2, e2⟩ := hk a s1
    refine ⟨s2, h1.trans h2, ?_⟩
    rw [h1.1] at e2
    exact e2

theorem Creates.seq {W : World} {m : M Unit} {k : Unit → M Unit} {q : Option (Option (Text × Decl))}
    (hm : Reading m fun _ => some ()) (hk : Creates W (k ()) q) : Creates W (m >>= k) q :=
  Creates.bind (r := some ()) (q := fun _ => q) hm fun _ => hk

theorem Creates.none {W : World} {m : M Unit} (hm : Reading m fun _ => some ()) : Creates W m (some .none) := by
  intro s
  obtain ⟨s1, h1, e1⟩ := hm s
  exact ⟨s1, h1, e1⟩

theorem Creates.throw {W : World} : Creates W Yaml.throw .none := fun s => ⟨s, .refl s, rfl⟩

theorem Creates.congr {W : World} {m : M Unit} {r q : Option (Option (Text × Decl))} (h : Creates W m r) (e : r = q) :
    Creates W m q := e ▸ h

theorem Creates.create {W : World} {name : Text} {d : Decl} {spec : Spec} (h : ∀ t, d.resolve t = spec) :
    Creates W (do warnIfExists name; createSink W name spec) (some (some (name, d))) := by
  intro s
  obtain ⟨s1, h1, e1⟩ := read_warnIfExists name s
  refine ⟨s1, h1, ?_⟩
  rw [bind_def, e1]
  simp only [h]
  rfl

theorem creates_console (W : World) (name : Text) (entries : List (Nat × Nat)) :
    Creates W (parseSinkToConsole W name entries)
      ((readBody W "console".toList entries).map fun o => o.map fun d => (name, d)) := by
  unfold parseSinkToConsole
  refine (Creates.bind (read_parseColor W entries) fun color => Creates.bind (read_parseStream W entries) fun err =>
    Creates.bind (read_parseArgs W true name entries) fun args => Creates.bind (read_parseLevel W _ entries) fun level =>
    Creates.bind (read_checkKeys W _ _ entries) fun _ => Creates.create (d := .console err
      (mkCfg (.console color W.boldFirst) (level.getD .trace) consoleDefaults args)) fun _ => rfl).congr ?_
  unfold readBody
  rw [if_pos rfl]
  cases readColor W entries with
  | none => rfl
  | some c =>
    cases readArgs W true entries with
    | none => rfl
    | some a => cases keysOk W entries <;> rfl

theorem creates_file (W : World) (name : Text) (entries : List (Nat × Nat)) :
    Creates W (parseSinkToFile W name entries)
      ((readBody W "file".toList entries).map fun o => o.map fun d => (name, d)) := by
  unfold parseSinkToFile
  refine (Creates.bind (read_parseNeeded W _ name entries) fun path =>
    Creates.bind (read_parseArgs W false name entries) fun args => Creates.bind (read_parseLevel W _ entries) fun level =>
    Creates.bind (read_checkKeys W _ _ entries) fun _ =>
      (?_ : Creates W _ (some (path.map fun path => (name, .file path (mkCfg .file (level.getD .trace) fileDefaults args)))))).congr ?_
  · cases path with
    | none => exact Creates.none (Reading.pure ())
    | some path => exact Creates.create fun _ => rfl
  · unfold readBody
    rw [if_neg (by decide), if_pos rfl]
    cases readArgs W false entries with
    | none => rfl
    | some a =>
      cases keysOk W entries with
      | none => rfl
      | some _ => cases textAt W entries "path".toList <;> rfl

theorem creates_syslog (W : World) (name : Text) (entries : List (Nat × Nat)) :
    Creates W (parseSinkToSyslog W name entries)
      ((readBody W "syslog".toList entries).map fun o => o.map fun d => (name, d)) := by
  unfold parseSinkToSyslog
  refine (Creates.bind (read_parseNeeded W _ name entries) fun path =>
    Creates.bind (read_parseArgs W false name entries) fun args => Creates.bind (read_parseLevel W _ entries) fun level =>
    Creates.bind (read_checkKeys W _ _ entries) fun _ =>
      (?_ : Creates W _ (some (path.map fun path => (name, .syslog path (mkCfg .syslog (level.getD .trace) fileDefaults args)))))).congr ?_
  · cases path with
    | none => exact Creates.none (Reading.pure ())
    | some path => exact Creates.create fun _ => rfl
  · unfold readBody
    rw [if_neg (by decide), if_neg (by decide), if_pos rfl]
    cases readArgs W false entries with
    | none => rfl
    | some a =>
      cases keysOk W entries with
      | none => rfl
      | some _ => cases textAt W entries "ident".toList <;> rfl

theorem creates_multi (W : World) (name : Text) (entries : List (Nat × Nat)) :
    Creates W (parseMultisink W name entries)
      ((readBody W "multisink".toList entries).map fun o => o.map fun d => (name, d)) := by
  unfold parseMultisink
  refine (Creates.bind (r := some (itemsAt W entries)) ?_ fun items =>
    Creates.bind (read_parseLevel W _ entries) fun level =>
    Creates.bind (read_checkKeys W _ _ entries) fun _ =>
      (?_ : Creates W _ (match items with
        | none => some none
        | some items => (items.mapM (asText W)).bind fun names => some (some (name, .multi (level.getD .trace) names))))).congr ?_
  · unfold itemsAt
    cases hp : prop W entries "sinks".toList with
    | none => exact Reading.seq (Reading.error _) (Reading.pure _)
    | some n =>
      cases n with
      | seq items => exact Reading.pure _
      | _ => exact Reading.seq (Reading.error _) (Reading.pure _)
  · cases items with
    | none => exact Creates.none (Reading.pure ())
    | some items =>
      simp only
      cases hm : items.mapM (asText W) with
      | none => exact Creates.throw
      | some names =>
        intro s
        obtain ⟨s1, h1, e1⟩ := read_collect name names s
        refine ⟨s1, h1, ?_⟩
        show (collect name names >>= fun sinks => createSink W name (Spec.multi (level.getD Level.trace) sinks)) s = _
        rw [bind_def, e1]
        rfl
  · unfold readBody
    rw [if_neg (by decide), if_neg (by decide), if_neg (by decide), if_pos rfl]
    cases keysOk W entries with
    | none => rfl
    | some _ =>
      cases itemsAt W entries with
      | none => rfl
      | some items =>
        show (items.mapM (asText W)).bind _ = Option.map _ ((items.mapM (asText W)).bind _)
        cases items.mapM (asText W) <;> rfl

theorem creates_parseSink (W : World) (i : Nat) (entries : List (Nat × Nat)) :
    Creates W (parseSink W i entries) (readSink W entries) := by
  unfold parseSink
  refine (Creates.bind (r := some (textAt W entries "name".toList)) ?_ fun name =>
    Creates.bind (r := some (textAt W entries "type".toList)) ?_ fun type =>
      (?_ : Creates W _ (match name, type with
        | some name, some type => if name = star then some none else (readBody W type entries).map fun o => o.map fun d => (name, d)
        | _, _ => some none))).congr ?_
  · unfold textAt
    cases hp : prop W entries "name".toList with
    | none => exact Reading.seq (Reading.report _) (Reading.pure _)
    | some n =>
      cases n with
      | scalar t => exact Reading.pure _
      | _ => exact Reading.seq (Reading.error _) (Reading.pure _)
  · unfold textAt
    cases hp : prop W entries "type".toList with
    | none => exact Reading.seq (Reading.error _) (Reading.pure _)
    | some n =>
      cases n with
      | scalar t => exact Reading.pure _
      | _ => exact Reading.seq (Reading.error _) (Reading.pure _)
  · cases name with
    | none => exact Creates.none (Reading.pure ())
    | some name =>
      cases type with
      | none => exact Creates.none (Reading.pure ())
      | some type =>
        simp only
        split
        · exact Creates.none (Reading.error _)
        · split
          · rename_i h; subst h; exact creates_console W name entries
          · split
            · rename_i h; subst h; exact creates_file W name entries
            · split
              · rename_i h; subst h; exact creates_syslog W name entries
              · split
                · rename_i h; subst h; exact creates_multi W name entries
                · rename_i h1 h2 h3 h4
                  have : readBody W type entries = some none := by
                    unfold readBody
                    rw [if_neg h1, if_neg h2, if_neg h3, if_neg h4]
                  rw [this]
                  exact Creates.none (Reading.error _)
  · rfl

/-! ### groups -/

/-- outer `none`: an exception; inner `none`: unusable -/
def readFallback (W : World) (entries : List (Nat × Nat)) : Option (Option Bool) :=
  match prop W entries "is_fallback".toList with
  | none => some (some false)
  | some (.scalar t) => (W.asBool t).map some
  | some _ => some none

/-- the name of the sink, and whether it is usable -/
def readGroupSink (W : World) (entries : List (Nat × Nat)) (parent : Option Text) (sinks : Table) : Option Text × Bool :=
  match prop W entries "sink".toList with
  | none => (defaultSink parent, true)
  | some (.scalar t) => (some t, (sinks.find t).isSome)
  | some _ => (none, false)

/-- the list of children; outer `none`: unusable -/
def readChildren (W : World) (entries : List (Nat × Nat)) : Option (Option (List Nat)) :=
  match prop W entries "children".toList with
  | none => some none
  | some .null => some none
  | some (.seq items) => some (some items)
  | some _ => none

/-- the node of a group as far as it is usable -/
def usable (name : Option Text) (fb : Option Bool) (sink : Option Text × Bool) (levelOk : Bool) (level : Option Level)
    (children : Option (Option (List Nat))) : Option GroupNode :=
  match name, fb, sink.2, levelOk, children with
  | some name, some isFallback, true, true, some children =>
    some { name, isFallback, sink := sink.1, level, children }
  | _, _, _, _, _ => none

/-- the node of a group as it is read: outer `none`: an exception; inner `none`: unusable -/
def groupAt (W : World) (entries : List (Nat × Nat)) (parent : Option Text) (sinks : Table) : Option (Option GroupNode) :=
  (readFallback W entries).bind fun fb =>
  (keysOk W entries).bind fun _ =>
  some (usable (textAt W entries "name".toList) fb (readGroupSink W entries parent sinks)
    ((prop W entries "level".toList).isSome || parent.isSome) (levelAt W entries) (readChildren W entries))

theorem read_readGroup (W : World) (i : Nat) (entries : List (Nat × Nat)) (parent : Option Text) :
    Reading (readGroup W i entries parent) fun y => groupAt W entries parent y.sinks := by
  unfold readGroup
  simp only
  refine Reading.congr (Reading.bind (r := fun _ => some (textAt W entries "name".toList)) ?_ fun name =>
    Reading.bind (r := fun _ => readFallback W entries) ?_ fun fb =>
    Reading.bind (r := fun y => some (readGroupSink W entries parent y.sinks)) ?_ fun sink =>
    Reading.bind (r := fun _ => some ((prop W entries "level".toList).isSome || parent.isSome)) ?_ fun levelOk =>
    Reading.bind (read_parseLevel W _ entries) fun level =>
    Reading.bind (r := fun _ => some (readChildren W entries)) ?_ fun children =>
    Reading.bind (read_checkKeys W _ _ entries) fun _ =>
    Reading.seq ?_ (q := fun _ => some (usable name fb sink levelOk level children)) ?_) fun y => ?_
  · unfold textAt
    cases hp : prop W entries "name".toList with
    | none => exact Reading.seq (Reading.groupNoName _) (Reading.pure _)
    | some n =>
      cases n with
      | scalar t => exact Reading.pure _
      | _ => exact Reading.seq (Reading.error _) (Reading.pure _)
  · unfold readFallback
    cases hp : prop W entries "is_fallback".toList with
    | none => exact Reading.pure _
    | some n =>
      cases n with
      | scalar t =>
        simp only
        cases W.asBool t with
        | none => exact Reading.throw
        | some b => exact Reading.pure _
      | _ => exact Reading.seq (Reading.error _) (Reading.pure _)
  · unfold readGroupSink
    cases hp : prop W entries "sink".toList with
    | none => exact Reading.pure _
    | some n =>
      cases n with
      | scalar t =>
        simp only
        refine Reading.congr (Reading.bind (q := fun o _ => some (some t, o.isSome)) (Reading.lookSink t) fun o => ?_) fun y => rfl
        cases o with
        | none => exact Reading.seq (Reading.error _) (Reading.pure _)
        | some k => exact Reading.pure _
      | _ => exact Reading.seq (Reading.error _) (Reading.pure _)
  · cases hp : prop W entries "level".toList with
    | none =>
      cases parent with
      | none =>
        rw [if_pos ⟨rfl, rfl⟩]
        exact Reading.seq (Reading.error _) (Reading.pure _)
      | some p =>
        rw [if_neg (by intro h; cases h.2)]
        exact Reading.pure _
    | some n =>
      rw [if_neg (by intro h; cases h.1)]
      exact Reading.pure _
  · unfold readChildren
    cases hp : prop W entries "children".toList with
    | none => exact Reading.pure _
    | some n =>
      cases n with
      | null => exact Reading.pure _
      | seq items => exact Reading.pure _
      | _ => exact Reading.seq (Reading.error _) (Reading.pure _)
  · cases sink.1 with
    | none => exact Reading.pure _
    | some k =>
      refine Reading.congr (Reading.bind (q := fun o _ => some ()) (Reading.lookSink k) fun o => ?_) fun y => rfl
      cases o with
      | none => exact Reading.error _
      | some k => exact Reading.pure _
  · unfold usable
    obtain ⟨sk, sb⟩ := sink
    have hbad : ∀ tmp : Text, Reading (do warning (.moreBugs tmp); pure none : M (Option GroupNode)) fun _ => some none :=
      fun tmp => Reading.seq (Reading.warning _) (Reading.pure _)
    cases name with
    | none => exact hbad _
    | some name =>
      cases fb with
      | none => exact hbad _
      | some fb =>
        cases sb with
        | false => exact hbad _
        | true =>
          cases levelOk with
          | false => exact hbad _
          | true =>
            cases children with
            | none => exact hbad _
            | some c => exact Reading.pure _
  · unfold groupAt
    cases readFallback W entries with
    | none => rfl
    | some fb => cases keysOk W entries <;> rfl

end Yaml
end Soralog
