import Verif.Spec.Document
/-!
# Documents whose values can be read

When the values of a document can be converted by the YAML library, and the resources the sinks need are there.  Nothing is
required of the meaning of the values: numbers may be out of range, names of levels, types, sinks and properties may be unknown, needed
properties may be missing, nodes may be of the wrong kind.
-/
namespace Soralog
namespace Yaml

open Soralog.System

/-- the list under a key, empty if there is none (or something else) -/
def listOf (W : World) (e : List (Nat × Nat)) (key : Text) : List Nat :=
  match prop W e key with
  | some (.seq items) => items
  | _ => []

/-- the keys of a map are texts -/
def KeysRead (W : World) (e : List (Nat × Nat)) : Prop := ∀ x ∈ e, (asText W x.1).isSome

/-- the scalar values a sink can have are what they have to be: numbers are numbers, booleans are booleans, texts are texts; a size
is not negative -/
structure SinkRead (W : World) (e : List (Nat × Nat)) : Prop where
  keys : KeysRead W e
  numbers : ∀ key, key ∈ ["capacity".toList, "buffer".toList, "max_message_length".toList, "latency".toList] →
    ∀ t, textAt W e key = some t → (W.asInt t).isSome
  size : ∀ t i, textAt W e "buffer".toList = some t → W.asInt t = some i → 0 ≤ i
  color : ∀ t, textAt W e "color".toList = some t → (W.asBool t).isSome
  members : ∀ n ∈ listOf W e "sinks".toList, (asText W n).isSome

/-- the same for a group -/
structure GroupReads (W : World) (e : List (Nat × Nat)) : Prop where
  keys : KeysRead W e
  fallback : ∀ t, textAt W e "is_fallback".toList = some t → (W.asBool t).isSome

/-- `n` is an element of the list, or of a list of children below one -/
inductive Within (W : World) (n : Nat) : List Nat → Prop
  | here {items : List Nat} (h : n ∈ items) : Within W n items
  | deeper {items : List Nat} {m : Nat} {e : List (Nat × Nat)} (hm : m ∈ items) (hn : W.node m = .map e)
      (h : Within W n (listOf W e "children".toList)) : Within W n items

/-- the parameters of the queue of a declared sink -/
def Decl.queue : Decl → Option Sink.Cfg
  | .console _ c => some c
  | .file _ c => some c
  | .syslog _ c => some c
  | .multi _ _ => none

def Decl.isSyslog : Decl → Bool
  | .syslog _ _ => true
  | _ => false

/-- The values of the document with the map `e` at its root can be read; there is memory for its sinks; it declares one syslog sink
at most, and none if there is one already; a level written for a group at top level is the name of a level. -/
structure Readable (W : World) (e : List (Nat × Nat)) (syslogOpen : Bool) : Prop where
  keys : KeysRead W e
  sinks : ∀ n ∈ listOf W e "sinks".toList, ∀ m, W.node n = .map m → SinkRead W m
  memory : ∀ n ∈ listOf W e "sinks".toList, ∀ d, NodeDeclares W n d → ∀ c, d.2.queue = some c → W.alloc c = true
  syslog : ∀ ds, Listed W (listOf W e "sinks".toList) ds →
    (ds.filter fun d => d.2.isSyslog).length + (if syslogOpen then 1 else 0) ≤ 1
  groups : ∀ n, Within W n (listOf W e "groups".toList) → ∀ m, W.node n = .map m → GroupReads W m
  levels : ∀ n ∈ listOf W e "groups".toList, ∀ m, W.node n = .map m → (prop W m "level".toList).isSome → (namedLevel W m).isSome

/-- the properties a sink of that type can have -/
def sinkProperties (type : Text) : List Text :=
  if type = "console".toList then ["stream".toList, "color".toList, "name".toList, "type".toList, "thread".toList, "capacity".toList,
    "buffer".toList, "max_message_length".toList, "latency".toList, "level".toList]
  else if type = "file".toList then ["path".toList, "name".toList, "type".toList, "thread".toList, "capacity".toList, "buffer".toList,
    "max_message_length".toList, "latency".toList, "level".toList]
  else if type = "syslog".toList then ["ident".toList, "name".toList, "type".toList, "thread".toList, "capacity".toList, "buffer".toList,
    "max_message_length".toList, "latency".toList, "level".toList]
  else ["name".toList, "type".toList, "sinks".toList, "level".toList]

/-- The value of a property of the sink `n` of that type is not usable, and the problem that has to be reported for it. -/
inductive SinkFault (W : World) (e : List (Nat × Nat)) (n type : Text) : Problem → Prop
  | capacity {t : Text} {i : Int} (hq : type ≠ "multisink".toList) (h : textAt W e "capacity".toList = some t) (hi : W.asInt t = some i) (hw : i < 4) :
      SinkFault W e n type (.wrongValue "capacity".toList n t)
  | buffer {t : Text} {i : Int} (hq : type ≠ "multisink".toList) (h : textAt W e "buffer".toList = some t) (hi : W.asInt t = some i) (h0 : 0 ≤ i) (hw : i < 416) :
      SinkFault W e n type (.wrongValue "buffer".toList n t)
  | length {t : Text} {i : Int} (hq : type ≠ "multisink".toList) (h : textAt W e "max_message_length".toList = some t) (hi : W.asInt t = some i)
      (hw : if type = "console".toList then i ≤ 64 else i < 64) : SinkFault W e n type (.wrongValue "max_message_length".toList n t)
  | latency {t : Text} {i : Int} (hq : type ≠ "multisink".toList) (h : textAt W e "latency".toList = some t) (hi : W.asInt t = some i) (hw : i < 0 ∨ intText i ≠ t) :
      SinkFault W e n type (.latencyWrong n t)
  | thread {t : Text} (hq : type ≠ "multisink".toList) (h : textAt W e "thread".toList = some t) (hw : t ∉ ["name".toList, "id".toList, "none".toList]) :
      SinkFault W e n type (.threadWrong n t)
  | notScalar {key : Text} {x : Node} (hq : type ≠ "multisink".toList)
      (hk : key ∈ ["thread".toList, "capacity".toList, "buffer".toList, "max_message_length".toList, "latency".toList])
      (h : prop W e key = some x) (hx : ∀ t, x ≠ .scalar t) : SinkFault W e n type (.notScalar key)
  | color {x : Node} (ht : type = "console".toList) (h : prop W e "color".toList = some x) (hx : ∀ t, x ≠ .scalar t) :
      SinkFault W e n type .colorNotScalar
  | stream {x : Node} (ht : type = "console".toList) (h : prop W e "stream".toList = some x)
      (hx : x ≠ .scalar "stdout".toList ∧ x ≠ .scalar "stderr".toList) : SinkFault W e n type .streamWrong
  | level {t : Text} (h : textAt W e "level".toList = some t) (hw : levelNames.lookup t = none) :
      SinkFault W e n type (.levelInvalid ("sink '".toList ++ n ++ "'".toList) t)
  | unknown {x : Nat × Nat} {k : Text} (h : x ∈ e) (hk : asText W x.1 = some k) (hw : k ∉ sinkProperties type) :
      SinkFault W e n type (if type = "console".toList then .consoleUnknownProperty n k else .sinkUnknownProperty n k)

/-- the same for a node of a group with the name `n` -/
inductive GroupFault (W : World) (e : List (Nat × Nat)) (n : Text) : Problem → Prop
  | level {t : Text} (h : textAt W e "level".toList = some t) (hw : levelNames.lookup t = none) :
      GroupFault W e n (.levelInvalid ("group ''".toList ++ n ++ "''".toList) t)
  | unknown {x : Nat × Nat} {k : Text} (h : x ∈ e) (hk : asText W x.1 = some k)
      (hw : k ∉ ["name".toList, "is_fallback".toList, "sink".toList, "level".toList, "children".toList]) :
      GroupFault W e n (.groupUnknownProperty ("'".toList ++ n ++ "'".toList) k)

/-- the problem is an error, or else a warning -/
def Problem.isError (p : Problem) : Prop := "E: ".toList <+: p.text

end Yaml
end Soralog
