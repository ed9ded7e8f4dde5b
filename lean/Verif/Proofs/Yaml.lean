import Verif.Spec.YamlTerms
import Verif.Model.Yaml
/-!
# Reasoning about configurators: triples over the monad of `Model/Yaml.lean`
-/
namespace Soralog
namespace Yaml

open Soralog.System

theorem bind_def {α β : Type} (m : M α) (f : α → M β) (s : St) :
    (m >>= f) s = match m s with
      | .ok a s => f a s
      | .throw s => .throw s
      | .ub => .ub
      | .diverge => .diverge := rfl

theorem pure_def {α : Type} (a : α) (s : St) : (pure a : M α) s = .ok a s := rfl

/-- Whenever `m` ends (with a value or an exception) it has changed the state only according to `P`; a value satisfies
`Q`. -/
def Tri {α : Type} (P : St → St → Prop) (Q : α → Prop) (m : M α) : Prop :=
  ∀ s, match m s with
    | .ok a s' => P s s' ∧ Q a
    | .throw s' => P s s'
    | .ub => True
    | .diverge => True

/-- a relation that composes -/
class Pre (P : St → St → Prop) : Prop where
  refl : ∀ s, P s s
  trans : ∀ {a b c}, P a b → P b c → P a c

variable {P : St → St → Prop}

theorem Tri.pure [Pre P] {α : Type} {Q : α → Prop} {a : α} (h : Q a) : Tri P Q (Pure.pure a : M α) :=
  fun s => ⟨Pre.refl s, h⟩

theorem Tri.throw [Pre P] {α : Type} {Q : α → Prop} : Tri P Q (Yaml.throw : M α) := fun s => Pre.refl s

theorem Tri.diverge {α : Type} {Q : α → Prop} : Tri P Q (Yaml.diverge : M α) := fun _ => trivial

theorem Tri.bind [Pre P] {α β : Type} {Q : α → Prop} {Q' : β → Prop} {m : M α} {k : α → M β} (hm : Tri P Q m)
    (hk : ∀ a, Q a → Tri P Q' (k a)) : Tri P Q' (m >>= k) := by
  intro s
  rw [bind_def]
  have h1 := hm s
  cases he : m s with
  | ok a s1 =>
    rw [he] at h1
    simp only at h1 ⊢
    have h2 := hk a h1.2 s1
    cases he2 : k a s1 with
    | ok b s2 => rw [he2] at h2; exact ⟨Pre.trans h1.1 h2.1, h2.2⟩
    | throw s2 => rw [he2] at h2; exact Pre.trans h1.1 h2
    | ub => trivial
    | diverge => trivial
  | throw s1 => rw [he] at h1; exact h1
  | ub => trivial
  | diverge => trivial

theorem Tri.mono {α : Type} {Q Q' : α → Prop} {m : M α} (h : Tri P Q m) (hq : ∀ a, Q a → Q' a) : Tri P Q' m := by
  intro s
  have h1 := h s
  split at h1
  · exact ⟨h1.1, hq _ h1.2⟩
  · exact h1
  · trivial
  · trivial

theorem Tri.both {α : Type} {Q Q' : α → Prop} {m : M α} (h : Tri P Q m) (h' : Tri P Q' m) :
    Tri P (fun a => Q a ∧ Q' a) m := by
  intro s
  have h1 := h s
  have h2 := h' s
  split at h1
  · rename_i he; rw [he] at h2; exact ⟨h1.1, h1.2, h2.2⟩
  · exact h1
  · trivial
  · trivial

theorem Tri.weaken {P P' : St → St → Prop} {α : Type} {Q : α → Prop} {m : M α} (h : Tri P Q m) (hp : ∀ s s', P s s' → P' s s') :
    Tri P' Q m := by
  intro s
  have h1 := h s
  split at h1
  · exact ⟨hp _ _ h1.1, h1.2⟩
  · exact hp _ _ h1
  · trivial
  · trivial

abbrev Any {α : Type} : α → Prop := fun _ => True

/-- the letter with which the text of a problem begins -/
def Problem.mark (p : Problem) : Char := p.text.headD ' '

/-- What a relation must allow for all the programs that only read and report: reports with the right flag. -/
class Reads (P : St → St → Prop) : Prop extends Pre P where
  error : ∀ p : Problem, p.mark = 'E' → p.odd = false → Tri P Any (error p)
  warning : ∀ p : Problem, p.mark = 'W' → p.odd = false → Tri P Any (warning p)

theorem Tri.lookSink [Pre P] (n : Text) : Tri P Any (lookSink n) := fun s => ⟨Pre.refl s, trivial⟩
theorem Tri.lookGroup [Pre P] (n : Text) : Tri P Any (lookGroup n) := fun s => ⟨Pre.refl s, trivial⟩

section
variable [Reads P] (W : World) (entries : List (Nat × Nat)) (name : Text)

theorem tri_checkKeys (known : List Text) (p : Text → Problem) (hp : ∀ k, (p k).mark = 'W') (ho : ∀ k, (p k).odd = false) :
    Tri P Any (checkKeys W known p entries) := by
  induction entries with
  | nil => exact Tri.pure trivial
  | cons e es ih =>
    unfold checkKeys
    refine Tri.bind (Q := Any) ?_ (fun _ _ => ih)
    split
    · exact Tri.throw
    · split
      · exact Tri.pure trivial
      · exact Reads.warning _ (hp _) (ho _)

/-- the possible results of `parseLevel` -/
def LevelWritten (o : Option Level) : Prop :=
  ∀ l, o = some l → ∃ t, prop W entries "level".toList = some (.scalar t) ∧ levelOf t = some l

theorem tri_parseLevel (target : Text) : Tri P (LevelWritten W entries) (parseLevel W target entries) := by
  unfold parseLevel
  split
  · exact Tri.pure (fun l h => by cases h)
  · rename_i t ht
    split
    · rename_i l hl
      refine Tri.bind (Q := Any) ?_ fun _ _ => Tri.bind (Q := Any) ?_ fun _ _ => Tri.pure ?_
      · split
        · exact Reads.warning _ rfl rfl
        · exact Tri.pure trivial
      · split
        · exact Reads.warning _ rfl rfl
        · exact Tri.pure trivial
      · intro l' h; cases h; exact ⟨t, ht, hl⟩
    · exact Tri.bind (Reads.error _ rfl rfl) fun _ _ => Tri.pure fun l h => by cases h
  · exact Tri.bind (Reads.error _ rfl rfl) fun _ _ => Tri.pure fun l h => by cases h

theorem tri_parseThread : Tri P Any (parseThread W name entries) := by
  unfold parseThread
  split
  · exact Tri.pure trivial
  · repeat' split
    · exact Tri.pure trivial
    · exact Tri.pure trivial
    · exact Tri.pure trivial
    · exact Tri.bind (Reads.warning _ rfl rfl) fun _ _ => Tri.pure trivial
  · exact Tri.bind (Reads.warning _ rfl rfl) fun _ _ => Tri.pure trivial

/-- the possible results of `parseNumber` -/
def NumberWritten (key : Text) (accept : Int → Text → Bool) (o : Option Nat) : Prop :=
  ∀ n, o = some n → ∃ t i, prop W entries key = some (.scalar t) ∧ W.asInt t = some i ∧ accept i t = true ∧ n = toSize i

theorem tri_parseNumber (key : Text) (accept : Int → Text → Bool) (wrong : Text → Problem) (hp : ∀ k, (wrong k).mark = 'W')
    (ho : ∀ k, (wrong k).odd = false) :
    Tri P (NumberWritten W entries key accept) (parseNumber W key accept wrong entries) := by
  unfold parseNumber
  split
  · exact Tri.pure fun n h => by cases h
  · rename_i t ht
    split
    · exact Tri.throw
    · rename_i i hi
      split
      · rename_i ha
        exact Tri.pure fun n h => by cases h; exact ⟨t, i, ht, hi, ha, rfl⟩
      · exact Tri.bind (Reads.warning _ (hp _) (ho _)) fun _ _ => Tri.pure fun n h => by cases h
  · exact Tri.bind (Reads.warning _ rfl rfl) fun _ _ => Tri.pure fun n h => by cases h

/-- the possible results of `parseArgs` -/
structure ArgsWritten (console : Bool) (a : Args) : Prop where
  capacity : NumberWritten W entries "capacity".toList acceptCapacity a.capacity
  buffer : NumberWritten W entries "buffer".toList acceptBuffer a.buffer
  maxLen : NumberWritten W entries "max_message_length".toList (acceptLength console) a.maxLen
  latency : NumberWritten W entries "latency".toList acceptLatency a.latency

theorem tri_parseArgs (console : Bool) : Tri P (ArgsWritten W entries console) (parseArgs W console name entries) := by
  unfold parseArgs
  refine Tri.bind (tri_parseThread W entries name) fun _ _ => ?_
  refine Tri.bind (tri_parseNumber W entries _ _ _ (fun _ => rfl) fun _ => rfl) fun c hc => ?_
  refine Tri.bind (tri_parseNumber W entries _ _ _ (fun _ => rfl) fun _ => rfl) fun b hb => ?_
  refine Tri.bind (tri_parseNumber W entries _ _ _ (fun _ => rfl) fun _ => rfl) fun m hm => ?_
  refine Tri.bind (tri_parseNumber W entries _ _ _ (fun _ => rfl) fun _ => rfl) fun l hl => ?_
  exact Tri.pure ⟨hc, hb, hm, hl⟩

theorem tri_warnIfExists : Tri P Any (warnIfExists name) := by
  unfold warnIfExists
  refine Tri.bind (Tri.lookSink name) fun o _ => ?_
  split
  · exact Reads.warning _ rfl rfl
  · exact Tri.pure trivial

theorem tri_parseColor : Tri P Any (parseColor W entries) := by
  unfold parseColor
  split
  · exact Tri.pure trivial
  · split
    · exact Tri.throw
    · exact Tri.pure trivial
  · exact Tri.bind (Reads.warning _ rfl rfl) fun _ _ => Tri.pure trivial

theorem tri_parseStream : Tri P Any (parseStream W entries) := by
  unfold parseStream
  split
  · exact Tri.pure trivial
  · repeat' split
    · exact Tri.pure trivial
    · exact Tri.pure trivial
    · exact Tri.bind (Reads.warning _ rfl rfl) fun _ _ => Tri.pure trivial
  · exact Tri.bind (Reads.warning _ rfl rfl) fun _ _ => Tri.pure trivial

theorem tri_parseNeeded (key : Text) :
    Tri P (fun o => ∀ t, o = some t → prop W entries key = some (.scalar t)) (parseNeeded W key name entries) := by
  unfold parseNeeded
  split
  · exact Tri.bind (Reads.error _ rfl rfl) fun _ _ => Tri.pure fun t h => by cases h
  · rename_i t ht; exact Tri.pure fun t' h => by cases h; exact ht
  · exact Tri.bind (Reads.error _ rfl rfl) fun _ _ => Tri.pure fun t h => by cases h

end

/-- The sinks a node may create. -/
inductive FromNode (W : World) (entries : List (Nat × Nat)) : Spec → Prop
  | console {err color : Bool} {level : Option Level} {a : Args} (hl : LevelWritten W entries level)
      (ha : ArgsWritten W entries true a) :
      FromNode W entries (.console err (mkCfg (.console color W.boldFirst) (level.getD .trace) consoleDefaults a))
  | file {path : Text} {level : Option Level} {a : Args} (hp : prop W entries "path".toList = some (.scalar path))
      (hl : LevelWritten W entries level) (ha : ArgsWritten W entries false a) :
      FromNode W entries (.file path (mkCfg .file (level.getD .trace) fileDefaults a))
  | syslog {ident : Text} {level : Option Level} {a : Args} (hp : prop W entries "ident".toList = some (.scalar ident))
      (hl : LevelWritten W entries level) (ha : ArgsWritten W entries false a) :
      FromNode W entries (.syslog ident (mkCfg .syslog (level.getD .trace) fileDefaults a))
  | multi {level : Option Level} {sinks : List Nat} (hl : LevelWritten W entries level) :
      FromNode W entries (.multi (level.getD .trace) sinks)

/-- What a relation must allow for the handling of sinks. -/
class Sinks (W : World) (P : St → St → Prop) : Prop extends Reads P where
  sinkNoName : ∀ i, Tri P Any (report (.sinkNoName i))
  sinkNotMap : ∀ i, Tri P Any (report (.sinkNotMap i))
  multiMissing : ∀ k n, Tri P Any (multiMissing k n)
  create : ∀ {name entries spec}, name ≠ star → prop W entries "name".toList = some (.scalar name) → FromNode W entries spec →
    Tri P Any (createSink W name spec)

section
variable (W : World) [Sinks W P]

theorem tri_parseSinkToConsole {name : Text} {entries : List (Nat × Nat)} (hn : name ≠ star)
    (hp : prop W entries "name".toList = some (.scalar name)) : Tri P Any (parseSinkToConsole W name entries) := by
  have : Reads P := (inferInstance : Sinks W P).toReads
  unfold parseSinkToConsole
  refine Tri.bind (tri_parseColor W entries) fun _ _ => ?_
  refine Tri.bind (tri_parseStream W entries) fun _ _ => ?_
  refine Tri.bind (tri_parseArgs W entries name _) fun a ha => ?_
  refine Tri.bind (tri_parseLevel W entries _) fun l hl => ?_
  refine Tri.bind (tri_checkKeys W entries _ _ (fun _ => rfl) fun _ => rfl) fun _ _ => ?_
  refine Tri.bind (tri_warnIfExists name) fun _ _ => ?_
  exact Sinks.create hn hp (.console hl ha)

theorem tri_parseSinkToFile {name : Text} {entries : List (Nat × Nat)} (hn : name ≠ star)
    (hp : prop W entries "name".toList = some (.scalar name)) : Tri P Any (parseSinkToFile W name entries) := by
  have : Reads P := (inferInstance : Sinks W P).toReads
  unfold parseSinkToFile
  refine Tri.bind (tri_parseNeeded W entries name _) fun o ho => ?_
  refine Tri.bind (tri_parseArgs W entries name _) fun a ha => ?_
  refine Tri.bind (tri_parseLevel W entries _) fun l hl => ?_
  refine Tri.bind (tri_checkKeys W entries _ _ (fun _ => rfl) fun _ => rfl) fun _ _ => ?_
  split
  · exact Tri.pure trivial
  · rename_i path
    refine Tri.bind (tri_warnIfExists name) fun _ _ => ?_
    exact Sinks.create hn hp (.file (ho _ rfl) hl ha)

theorem tri_parseSinkToSyslog {name : Text} {entries : List (Nat × Nat)} (hn : name ≠ star)
    (hp : prop W entries "name".toList = some (.scalar name)) : Tri P Any (parseSinkToSyslog W name entries) := by
  have : Reads P := (inferInstance : Sinks W P).toReads
  unfold parseSinkToSyslog
  refine Tri.bind (tri_parseNeeded W entries name _) fun o ho => ?_
  refine Tri.bind (tri_parseArgs W entries name _) fun a ha => ?_
  refine Tri.bind (tri_parseLevel W entries _) fun l hl => ?_
  refine Tri.bind (tri_checkKeys W entries _ _ (fun _ => rfl) fun _ => rfl) fun _ _ => ?_
  split
  · exact Tri.pure trivial
  · rename_i path
    refine Tri.bind (tri_warnIfExists name) fun _ _ => ?_
    exact Sinks.create hn hp (.syslog (ho _ rfl) hl ha)

include W in
theorem tri_collect (name : Text) (ks : List Text) : Tri P Any (collect name ks) := by
  have : Reads P := (inferInstance : Sinks W P).toReads
  induction ks with
  | nil => exact Tri.pure trivial
  | cons k ks ih =>
    unfold collect
    refine Tri.bind (Tri.lookSink k) fun o _ => ?_
    split
    · exact Tri.bind ih fun _ _ => Tri.pure trivial
    · exact Tri.bind (Sinks.multiMissing W k name) fun _ _ => ih

theorem tri_parseMultisink {name : Text} {entries : List (Nat × Nat)} (hn : name ≠ star)
    (hp : prop W entries "name".toList = some (.scalar name)) : Tri P Any (parseMultisink W name entries) := by
  have : Reads P := (inferInstance : Sinks W P).toReads
  unfold parseMultisink
  refine Tri.bind (Q := Any) ?_ fun o _ => ?_
  · split
    · exact Tri.bind (Reads.error _ rfl rfl) fun _ _ => Tri.pure trivial
    · exact Tri.pure trivial
    · exact Tri.bind (Reads.error _ rfl rfl) fun _ _ => Tri.pure trivial
  refine Tri.bind (tri_parseLevel W entries _) fun l hl => ?_
  refine Tri.bind (tri_checkKeys W entries _ _ (fun _ => rfl) fun _ => rfl) fun _ _ => ?_
  split
  · exact Tri.pure trivial
  · split
    · exact Tri.throw
    · refine Tri.bind (tri_collect W name _) fun ks _ => ?_
      exact Sinks.create hn hp (.multi hl)

theorem tri_parseSink (i : Nat) (entries : List (Nat × Nat)) : Tri P Any (parseSink W i entries) := by
  have : Reads P := (inferInstance : Sinks W P).toReads
  unfold parseSink
  refine Tri.bind (Q := fun o => ∀ t, o = some t → prop W entries "name".toList = some (.scalar t)) ?_ fun name hname => ?_
  · split
    · exact Tri.bind (Sinks.sinkNoName W i) fun _ _ => Tri.pure fun t h => by cases h
    · rename_i t ht; exact Tri.pure fun t' h => by cases h; exact ht
    · exact Tri.bind (Reads.error _ rfl rfl) fun _ _ => Tri.pure fun t h => by cases h
  refine Tri.bind (Q := Any) ?_ fun type _ => ?_
  · split
    · exact Tri.bind (Reads.error _ rfl rfl) fun _ _ => Tri.pure trivial
    · exact Tri.pure trivial
    · exact Tri.bind (Reads.error _ rfl rfl) fun _ _ => Tri.pure trivial
  split
  · split
    · exact Reads.error _ rfl rfl
    · rename_i hn
      have hp := hname _ rfl
      repeat' split
      · exact tri_parseSinkToConsole W hn hp
      · exact tri_parseSinkToFile W hn hp
      · exact tri_parseSinkToSyslog W hn hp
      · exact tri_parseMultisink W hn hp
      · exact Reads.error _ rfl rfl
  · exact Tri.pure trivial

theorem tri_parseSinkList (i : Nat) (items : List Nat) : Tri P Any (parseSinkList W i items) := by
  have : Reads P := (inferInstance : Sinks W P).toReads
  induction items generalizing i with
  | nil => exact Tri.pure trivial
  | cons n ns ih =>
    unfold parseSinkList
    refine Tri.bind (Q := Any) ?_ fun _ _ => ih _
    unfold parseSinkItem
    split
    · exact tri_parseSink W _ _
    · exact Sinks.sinkNotMap W _

theorem tri_parseSinks (n : Node) : Tri P Any (parseSinks W n) := by
  have : Reads P := (inferInstance : Sinks W P).toReads
  unfold parseSinks
  split
  · exact Reads.error _ rfl rfl
  · exact tri_parseSinkList W _ _
  · exact Reads.error _ rfl rfl

end

/-! ### groups -/

/-- the elements of the list 'children' -/
def childrenOf (W : World) (entries : List (Nat × Nat)) : Option (List Nat) :=
  match prop W entries "children".toList with
  | some (.seq items) => some items
  | _ => none

/-- the sink of a group that names none: none for a child, the sink to nowhere for a root -/
def defaultSink (parent : Option Text) : Option Text := if parent.isNone then some star else none

/-- What is known of a usable group node. -/
structure GroupRead (W : World) (entries : List (Nat × Nat)) (parent : Option Text) (g : GroupNode) : Prop where
  name : prop W entries "name".toList = some (.scalar g.name)
  sink : (prop W entries "sink".toList = none ∧ g.sink = defaultSink parent) ∨
    ∃ t, prop W entries "sink".toList = some (.scalar t) ∧ g.sink = some t
  level : LevelWritten W entries g.level
  levelThere : (prop W entries "level".toList).isSome ∨ parent.isSome
  children : g.children = childrenOf W entries

/-- What a relation must allow for the handling of groups. -/
class Groups (W : World) (F : Nat) (P : St → St → Prop) : Prop extends Reads P where
  noName : ∀ t, Tri P Any (groupNoName t)
  apply : ∀ {g entries parent}, g.name ≠ star → GroupRead W entries parent g → parent ≠ some star →
    Tri P Any (applyGroup F g parent)

section
variable (W : World) (F : Nat)

theorem tri_readGroup [Reads P] (hnn : ∀ t, Tri P Any (groupNoName t)) (i : Nat)
    (entries : List (Nat × Nat)) (parent : Option Text) :
    Tri P (fun o => ∀ g, o = some g → GroupRead W entries parent g) (readGroup W i entries parent) := by
  unfold readGroup
  simp only
  refine Tri.bind (Q := fun o => ∀ t, o = some t → prop W entries "name".toList = some (.scalar t)) ?_ fun name hname => ?_
  · split
    · exact Tri.bind (hnn _) fun _ _ => Tri.pure fun t h => by cases h
    · rename_i t ht; exact Tri.pure fun t' h => by cases h; exact ht
    · exact Tri.bind (Reads.error _ rfl rfl) fun _ _ => Tri.pure fun t h => by cases h
  refine Tri.bind (Q := Any) ?_ fun isFallback _ => ?_
  · split
    · exact Tri.pure trivial
    · split
      · exact Tri.throw
      · exact Tri.pure trivial
    · exact Tri.bind (Reads.error _ rfl rfl) fun _ _ => Tri.pure trivial
  refine Tri.bind (Q := fun sk => sk.2 = true → (prop W entries "sink".toList = none ∧ sk.1 = defaultSink parent) ∨
    ∃ t, prop W entries "sink".toList = some (.scalar t) ∧ sk.1 = some t) ?_ fun sink hsink => ?_
  · split
    · rename_i h; exact Tri.pure fun _ => .inl ⟨h, rfl⟩
    · rename_i t h
      refine Tri.bind (Tri.lookSink t) fun o _ => ?_
      split
      · exact Tri.pure fun _ => .inr ⟨t, h, rfl⟩
      · exact Tri.bind (Reads.error _ rfl rfl) fun _ _ => Tri.pure fun h => by cases h
    · exact Tri.bind (Reads.error _ rfl rfl) fun _ _ => Tri.pure fun h => by cases h
  refine Tri.bind (Q := fun b => b = true → (prop W entries "level".toList).isSome ∨ parent.isSome) ?_ fun levelOk hlevelOk => ?_
  · split
    · exact Tri.bind (Reads.error _ rfl rfl) fun _ _ => Tri.pure fun h => by cases h
    · rename_i h
      refine Tri.pure fun _ => ?_
      cases hp : prop W entries "level".toList with
      | some _ => exact .inl rfl
      | none =>
        cases hq : parent with
        | some _ => exact .inr rfl
        | none => exact absurd ⟨by rw [hp]; rfl, by rw [hq]; rfl⟩ h
  refine Tri.bind (tri_parseLevel W entries _) fun level hlevel => ?_
  refine Tri.bind (Q := fun c => ∀ items, c = some items → items = childrenOf W entries) ?_ fun children hchildren => ?_
  · split
    · rename_i h; exact Tri.pure fun _ hh => by cases hh; unfold childrenOf; rw [h]
    · rename_i h; exact Tri.pure fun _ hh => by cases hh; unfold childrenOf; rw [h]
    · rename_i h; exact Tri.pure fun _ hh => by cases hh; unfold childrenOf; rw [h]
    · exact Tri.bind (Reads.error _ rfl rfl) fun _ _ => Tri.pure fun _ h => by cases h
  refine Tri.bind (tri_checkKeys W entries _ _ (fun _ => rfl) fun _ => rfl) fun _ _ => ?_
  refine Tri.bind (Q := Any) ?_ fun _ _ => ?_
  · split
    · refine Tri.bind (Tri.lookSink _) fun o _ => ?_
      split
      · exact Tri.pure trivial
      · exact Reads.error _ rfl rfl
    · exact Tri.pure trivial
  split
  · rename_i nm fb hs hl ch
    refine Tri.pure fun g hg => ?_
    cases hg
    exact ⟨hname _ rfl, hsink ‹_›, hlevel, hlevelOk rfl, hchildren _ rfl⟩
  · exact Tri.bind (Reads.warning _ rfl rfl) fun _ _ => Tri.pure fun g h => by cases h

variable [Groups W F P]

theorem tri_parseGroupList [Reads P] {one : Nat → List (Nat × Nat) → M Unit} (h : ∀ i e, Tri P Any (one i e)) (i : Nat)
    (items : List Nat) : Tri P Any (parseGroupList W one i items) := by
  induction items generalizing i with
  | nil => exact Tri.pure trivial
  | cons n ns ih =>
    unfold parseGroupList
    refine Tri.bind (Q := Any) ?_ fun _ _ => ih _
    unfold parseGroupItem
    split
    · exact h _ _
    · exact Reads.error _ rfl rfl

theorem tri_parseGroup (f i : Nat) (entries : List (Nat × Nat)) (parent : Option Text) (hpar : parent ≠ some star) :
    Tri P Any (parseGroup W F f parent i entries) := by
  have hR : Reads P := (inferInstance : Groups W F P).toReads
  induction f generalizing i entries parent with
  | zero => unfold parseGroup; exact Tri.diverge
  | succ f ih =>
    unfold parseGroup
    refine Tri.bind (tri_readGroup W (Groups.noName W F) i entries parent) fun o ho => ?_
    split
    · exact Tri.pure trivial
    · rename_i g
      have hg := ho g rfl
      split
      · exact Reads.error _ rfl rfl
      · rename_i hns
        refine Tri.bind (Groups.apply (W := W) hns hg hpar) fun _ _ => ?_
        split
        · exact tri_parseGroupList W (fun i e => ih i e _ fun h => hns (Option.some.inj h)) _ _
        · exact Tri.pure trivial

theorem tri_parseGroups (n : Node) : Tri P Any (parseGroups W F n) := by
  have : Reads P := (inferInstance : Groups W F P).toReads
  unfold parseGroups
  split
  · exact Reads.error _ rfl rfl
  · exact tri_parseGroupList W (fun i e => tri_parseGroup W F _ i e _ fun h => by cases h) _ _
  · exact Reads.error _ rfl rfl

variable [Sinks W P]

theorem tri_parse (root : Node) : Tri P Any (parse W F root) := by
  have : Reads P := (inferInstance : Groups W F P).toReads
  unfold parse
  split
  · simp only
    refine Tri.bind (Q := Any) ?_ fun _ _ => ?_
    · split
      · exact Reads.error _ rfl rfl
      · exact Tri.pure trivial
    refine Tri.bind (tri_checkKeys W _ _ _ (fun _ => rfl) fun _ => rfl) fun _ _ => ?_
    refine Tri.bind (Q := Any) ?_ fun _ _ => ?_
    · split
      · exact tri_parseSinks W _
      · exact Tri.pure trivial
    · split
      · exact tri_parseGroups W F _
      · exact Tri.pure trivial
  · exact Reads.error _ rfl rfl

end
end Yaml
end Soralog
