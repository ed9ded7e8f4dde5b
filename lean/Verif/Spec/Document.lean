import Verif.Model.Yaml
/-!
# What a document means

A specification of documents that does not mention how they are processed: which sinks and groups a document declares,
and with which parameters.  The vocabulary of the model used here is that of the document itself: `World.node` (the graph of
nodes), `prop` (the value of a key in a map), `World.asInt`, `World.asBool`, `asText` (the scalar conversions of the YAML
library).
-/
namespace Soralog
namespace Yaml

open Soralog.System

/-- The names of levels (README; configurator_from_yaml.cpp:178-212). -/
def levelNames : List (Text × Level) :=
  [("off".toList, .off), ("critical".toList, .critical), ("crit".toList, .critical), ("error".toList, .error),
   ("warning".toList, .warn), ("warn".toList, .warn), ("info".toList, .info), ("verbose".toList, .verbose),
   ("debug".toList, .debug), ("deb".toList, .debug), ("trace".toList, .trace)]

/-- the text of a scalar property -/
def textAt (W : World) (entries : List (Nat × Nat)) (key : Text) : Option Text :=
  match prop W entries key with
  | some (.scalar t) => some t
  | _ => none

/-- the level a map names in its property 'level' -/
def namedLevel (W : World) (entries : List (Nat × Nat)) : Option Level :=
  (textAt W entries "level".toList).bind fun t => levelNames.lookup t

/-- The number written for `key` if it is acceptable, else the default. -/
def numberOr (W : World) (entries : List (Nat × Nat)) (key : Text) (ok : Int → Text → Bool) (default : Nat) : Nat :=
  match (textAt W entries key).bind fun t => (W.asInt t).map fun i => (i, t) with
  | some (i, t) => if ok i t then i.toNat else default
  | none => default

/-- Which thread information is asked for: 'thread' is `name`, `id` or anything else. -/
def threadOf (W : World) (entries : List (Nat × Nat)) : ThreadInfo :=
  if textAt W entries "thread".toList = some "name".toList then .name
  else if textAt W entries "thread".toList = some "id".toList then .id
  else .none

/-- The parameters of a sink with a queue: those written if they are acceptable, else the defaults (for `console` and for the
others).  Acceptable are: a capacity of at least 4, a buffer for at least four events of 104 bytes, messages of more than
64 (console) or at least 64 (others) bytes, a non-negative latency written in the canonical way.  The buffer is
enlarged to hold two messages. -/
def queueOf (W : World) (entries : List (Nat × Nat)) (console : Bool) (kind : Sink.Kind) : Sink.Cfg :=
  let maxLen := numberOr W entries "max_message_length".toList
    (fun i _ => if console then decide (64 < i) else decide (64 ≤ i)) 1024
  { kind,
    level := (namedLevel W entries).getD .trace,
    ti := threadOf W entries,
    capacity := numberOr W entries "capacity".toList (fun i _ => decide (4 ≤ i)) (if console then 64 else 2048),
    maxLen,
    maxBuffer := max (numberOr W entries "buffer".toList (fun i _ => decide (416 ≤ i)) (if console then 2 ^ 17 else 2 ^ 22))
      (2 * maxLen),
    latency := numberOr W entries "latency".toList (fun i t => decide (intText i = t ∧ 0 ≤ i)) (if console then 200 else 1000) }

/-- What the node of a sink declares. -/
inductive Decl where
  | console (err : Bool) (cfg : Sink.Cfg)
  | file (path : Text) (cfg : Sink.Cfg)
  | syslog (ident : Text) (cfg : Sink.Cfg)
  | multi (level : Level) (names : List Text)
deriving DecidableEq

/-- The sink declared, with the table of sinks as it is: the names of a multisink are looked up, those that are missing
are left out. -/
def Decl.resolve (sinks : Table) : Decl → Spec
  | .console e c => .console e c
  | .file p c => .file p c
  | .syslog i c => .syslog i c
  | .multi l names => .multi l (names.filterMap sinks.find)

/-- The map declares a sink of that name. -/
inductive Declares (W : World) (e : List (Nat × Nat)) : Text × Decl → Prop
  | console {n : Text} (hn : textAt W e "name".toList = some n) (hs : n ≠ star)
      (ht : textAt W e "type".toList = some "console".toList) :
      Declares W e (n, .console (decide (textAt W e "stream".toList = some "stderr".toList))
        (queueOf W e true (.console ((textAt W e "color".toList).bind W.asBool == some true) W.boldFirst)))
  | file {n path : Text} (hn : textAt W e "name".toList = some n) (hs : n ≠ star)
      (ht : textAt W e "type".toList = some "file".toList) (hp : textAt W e "path".toList = some path) :
      Declares W e (n, .file path (queueOf W e false .file))
  | syslog {n ident : Text} (hn : textAt W e "name".toList = some n) (hs : n ≠ star)
      (ht : textAt W e "type".toList = some "syslog".toList) (hp : textAt W e "ident".toList = some ident) :
      Declares W e (n, .syslog ident (queueOf W e false .syslog))
  | multi {n : Text} {items : List Nat} {names : List Text} (hn : textAt W e "name".toList = some n) (hs : n ≠ star)
      (ht : textAt W e "type".toList = some "multisink".toList) (hi : prop W e "sinks".toList = some (.seq items))
      (hm : items.mapM (asText W) = some names) :
      Declares W e (n, .multi ((namedLevel W e).getD .trace) names)

/-- the element `n` of the list of sinks declares a sink -/
def NodeDeclares (W : World) (n : Nat) (d : Text × Decl) : Prop := ∃ e, W.node n = .map e ∧ Declares W e d

/-- the sinks a list of nodes declares, in order -/
inductive Listed (W : World) : List Nat → List (Text × Decl) → Prop
  | nil : Listed W [] []
  | use {n ns d ds} (h : NodeDeclares W n d) (hs : Listed W ns ds) : Listed W (n :: ns) (d :: ds)
  | skip {n ns ds} (h : ∀ d, ¬ NodeDeclares W n d) (hs : Listed W ns ds) : Listed W (n :: ns) ds

/-- What the sinks of a system are after the sinks `ds` have been added: the others stay, the new ones are numbered in
order, each one is as declared (a multisink holds those of its sinks that existed when it was declared), a name refers to
the last sink with that name, and nothing else has changed. -/
structure Added (ds : List (Text × Decl)) (s s' : Sys × (Nat → Spec)) : Prop where
  count : s'.1.nsinks = s.1.nsinks + ds.length
  old : ∀ k, k < s.1.nsinks → s'.1.sinkName k = s.1.sinkName k ∧ s'.2 k = s.2 k
  name : ∀ j d, ds[j]? = some d → s'.1.sinkName (s.1.nsinks + j) = d.1
  spec : ∀ j d, ds[j]? = some d → ∃ t, (∀ n, t.find n = match (ds.take j).reverse.findIdx? (·.1 == n) with
      | some i => some (s.1.nsinks + (j - 1 - i))
      | none => s.1.sinks.find n) ∧ s'.2 (s.1.nsinks + j) = d.2.resolve t
  table : ∀ n, s'.1.sinks.find n = match ds.reverse.findIdx? (·.1 == n) with
      | some i => some (s.1.nsinks + (ds.length - 1 - i))
      | none => s.1.sinks.find n
  rest : s'.1 = { s.1 with nsinks := s'.1.nsinks, sinkName := s'.1.sinkName, sinks := s'.1.sinks }

/-- The map is a usable node of a group, in a group of name `parent` or at top level; `sinks` is the table of sinks. -/
structure UsableGroup (W : World) (sinks : Table) (parent : Option Text) (e : List (Nat × Nat)) (g : GroupNode) : Prop where
  name : textAt W e "name".toList = some g.name
  notStar : g.name ≠ star
  fallback : match prop W e "is_fallback".toList with
    | none => g.isFallback = false
    | some (.scalar t) => W.asBool t = some g.isFallback
    | some _ => False
  sink : match prop W e "sink".toList with
    | none => g.sink = if parent.isNone then some star else none
    | some (.scalar t) => g.sink = some t ∧ (sinks.find t).isSome
    | some _ => False
  level : g.level = namedLevel W e
  levelGiven : parent = none → (prop W e "level".toList).isSome
  children : match prop W e "children".toList with
    | none => g.children = none
    | some .null => g.children = none
    | some (.seq items) => g.children = some items
    | some _ => False

/-- The usable group nodes of a list, each with the name of the group in which it is nested, in document order. -/
inductive Nests (W : World) (sinks : Table) : Option Text → List Nat → List (Option Text × GroupNode) → Prop
  | nil {parent} : Nests W sinks parent [] []
  | use {parent n ns e g cs rest} (hn : W.node n = .map e) (h : UsableGroup W sinks parent e g)
      (hc : Nests W sinks (some g.name) (g.children.getD []) cs) (hr : Nests W sinks parent ns rest) :
      Nests W sinks parent (n :: ns) ((parent, g) :: (cs ++ rest))
  | skip {parent n ns rest} (h : ∀ e g, W.node n = .map e → ¬ UsableGroup W sinks parent e g) (hr : Nests W sinks parent ns rest) :
      Nests W sinks parent (n :: ns) rest

/-- The group `x` of the system is what the usable node `g`, nested in a group of name `p` or at top level, says. -/
structure AsWritten (y : Sys) (p : Option Text) (g : GroupNode) (x : Nat) : Prop where
  found : y.groups.find g.name = some x
  name : (y.grp x).name = g.name
  top : p = none → (y.grp x).parent = none
  nested : ∀ q, p = some q → ∃ z, y.groups.find q = some z ∧ (y.grp x).parent = some z
  sink : ∀ k, g.sink = some k → ∃ j, y.sinks.find k = some j ∧ (y.grp x).sink = some j
  sinkOfParent : g.sink = none → ∃ z, (y.grp x).parent = some z ∧ (y.grp x).sink = (y.grp z).sink
  level : ∀ l, g.level = some l → (y.grp x).level = l
  levelOfParent : g.level = none → ∃ z, (y.grp x).parent = some z ∧ (y.grp x).level = (y.grp z).level

/-- The node `n` is an element of a list of groups at any depth of the document, in a group of name `p` or at top level; the
groups around it are usable. -/
inductive Under (W : World) (sinks : Table) (p : Option Text) (n : Nat) : Option Text → List Nat → Prop
  | here {items : List Nat} (h : n ∈ items) : Under W sinks p n p items
  | deeper {parent : Option Text} {items : List Nat} {m : Nat} {e : List (Nat × Nat)} {g : GroupNode} (hm : m ∈ items)
      (hn : W.node m = .map e) (hu : UsableGroup W sinks parent e g) (h : Under W sinks p n (some g.name) (g.children.getD [])) :
      Under W sinks p n parent items

/-- The calls of the logging system a usable group node stands for; `known`: a group of that name exists. -/
def GroupNode.calls (g : GroupNode) (parent : Option Text) (known : Bool) : List Op :=
  (if known then
    (parent.map fun p => Op.setParentOfGroup g.name p).toList ++ (g.sink.map fun k => Op.setSinkOfGroup g.name k).toList ++
      (g.level.map fun l => Op.setLevelOfGroup g.name l).toList
  else [.makeGroup g.name parent g.sink g.level]) ++
  (if g.isFallback then [.setFallbackGroup g.name] else [])

/-- the calls are made one after the other, each one returns -/
inductive Performed (F : Nat) : List Op → Sys → Sys → Prop
  | nil {s : Sys} : Performed F [] s s
  | cons {op : Op} {ops : List Op} {s s1 s2 : Sys} {v : Val} (h : step F s op = .ret v s1) (hs : Performed F ops s1 s2) :
      Performed F (op :: ops) s s2

/-- the calls of the nodes are made in the order of the nodes -/
inductive Carried (F : Nat) : List (Option Text × GroupNode) → Sys → Sys → Prop
  | nil {s : Sys} : Carried F [] s s
  | cons {p : Option Text} {g : GroupNode} {D : List (Option Text × GroupNode)} {s s1 s2 : Sys}
      (h : Performed F (g.calls p (s.groups.find g.name).isSome) s s1) (hs : Carried F D s1 s2) : Carried F ((p, g) :: D) s s2

end Yaml
end Soralog
