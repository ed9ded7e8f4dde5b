import Verif.Spec.Construct
import Verif.Props.Sink
/-!
# C94: the arguments of a sink's constructor mean what their names say

The full statement, `∀ k val, Honoured k val (construct … (asDeclared k val))`, is false for the file sink: its header
names the sixth and the seventh parameter the other way round than its definition (`C94_refuted`).  Proved: it holds for
the console and the syslog sink (`C94_partial`), for the file sink exactly when the exchange makes no difference
(`C94_file_iff`), and for every sink built by the configurator (`C94_document`).
-/
namespace Soralog
namespace Construct

theorem received_defined (k : Class) (val : Param → Option Nat) (q : Param) :
    received k ((defined k).map val) q = val q := by
  cases k <;> cases q <;> simp [received, defined]

theorem max_two (b m : Nat) : (if b < m * 2 then m * 2 else b) = max b (2 * m) := by
  split <;> omega

/-- **C94**, for console and syslog sinks.  Values given in the order of the header are used for what the header calls them, the
others have their defaults. -/
theorem C94_partial (k : Class) (hk : k ≠ .file) (kind : Sink.Kind) (level : Level) (ti : ThreadInfo) (val : Param → Option Nat) :
    Honoured k val (construct k kind level ti (asDeclared k val)) ∧
    (construct k kind level ti (asDeclared k val)).level = level ∧ (construct k kind level ti (asDeclared k val)).ti = ti := by
  have hd : asDeclared k val = (defined k).map val := by cases k <;> first | rfl | exact absurd rfl hk
  have hr := received_defined k val
  refine ⟨⟨?_, ?_, ?_, ?_⟩, rfl, rfl⟩
  · simp only [construct, Yaml.mkCfg, hd, hr, meant]; cases k <;> rfl
  · simp only [construct, Yaml.mkCfg, hd, hr, meant]; cases k <;> rfl
  · simp only [construct, Yaml.mkCfg, hd, hr, meant, max_two]; cases k <;> rfl
  · simp only [construct, Yaml.mkCfg, hd, hr, meant]; cases k <;> rfl

/-- a console sink for four events of 64 bytes -/
example : (construct .console (.console false false) .info .none [some 4, some 64, some 416, some 0]).maxLen = 64 ∧
    (construct .console (.console false false) .info .none [some 4, some 64, some 416, some 0]).maxBuffer = 416 := by decide

/-- the file sink exchanges two of the values -/
theorem file_construct (level : Level) (ti : ThreadInfo) (val : Param → Option Nat) :
    construct .file .file level ti (asDeclared .file val) =
    { kind := .file, level := level, ti := ti, capacity := (val .capacity).getD 2048, maxLen := (val .bufferSize).getD 1024,
      maxBuffer := max ((val .maxMessageLength).getD (4 * 1024 * 1024)) (2 * (val .bufferSize).getD 1024),
      latency := (val .latency).getD 1000 } := by
  simp only [construct, Yaml.mkCfg, asDeclared, declared, received, defined, List.map, List.zip, List.zipWith, max_two]
  rfl

/-- **C94**, for the file sink: exactly when are the values used for what the header calls them?  Both are left out; or both are
given and equal; or one of them is given and happens to be what the other one's default makes of it. -/
theorem C94_file_iff (level : Level) (ti : ThreadInfo) (val : Param → Option Nat) :
    Honoured .file val (construct .file .file level ti (asDeclared .file val)) ↔
    (val .bufferSize).getD 1024 = (val .maxMessageLength).getD 1024 ∧
    max ((val .maxMessageLength).getD 4194304) (2 * (val .bufferSize).getD 1024) =
      max ((val .bufferSize).getD 4194304) (2 * (val .maxMessageLength).getD 1024) := by
  rw [file_construct]
  constructor
  · intro h
    exact ⟨h.maxLen, h.buffer⟩
  · intro h
    exact ⟨rfl, h.1, h.2, rfl⟩

/-- the values a user gives: four events, messages of 64 bytes, a buffer of 512 bytes, no latency -/
def wanted : Param → Option Nat
  | .capacity => some 4
  | .maxMessageLength => some 64
  | .bufferSize => some 512
  | .latency => some 0

example : Honoured .file (fun _ => none) (construct .file .file .info .none (asDeclared .file fun _ => none)) :=
  (C94_file_iff _ _ _).2 (by decide)

example : Honoured .file (fun _ => some 2048) (construct .file .file .info .none (asDeclared .file fun _ => some 2048)) :=
  (C94_file_iff _ _ _).2 (by decide)

/-- **C94** is false of the file sink. Someone asks for messages of at most 64 bytes; a message of 100 bytes is kept whole. -/
theorem C94_refuted :
    ¬ Honoured .file wanted (construct .file .file .info .none (asDeclared .file wanted)) ∧
    ∃ e ∈ ((Sink.Leaf.new (construct .file .file .info .none (asDeclared .file wanted)) Sink.exampleWorld true).store
        { name := [], level := .info, format := [], fmt := .ok (List.replicate 100 'x') }).queue,
      meant .file wanted .maxMessageLength < e.message.length := by
  refine ⟨fun h => absurd ((C94_file_iff _ _ _).1 h) (by decide), ?_⟩
  decide +kernel

/-- **C94**, for documents: the configurator passes the values by position, and each arrives at the parameter the document
names. -/
theorem C94_document (k : Class) (kind : Sink.Kind) (level : Level) (a : Yaml.Args) :
    Honoured k (fun q => match q with | .capacity => a.capacity | .maxMessageLength => a.maxLen | .bufferSize => a.buffer | .latency => a.latency)
      (fromDocument k kind level a) ∧
    fromDocument k kind level a = Yaml.mkCfg kind level (standard k) a := by
  have heq : fromDocument k kind level a = Yaml.mkCfg kind level (standard k) a := by
    cases k <;> rfl
  refine ⟨?_, heq⟩
  rw [heq]
  constructor
  · cases k <;> rfl
  · cases k <;> rfl
  · simp only [Yaml.mkCfg, meant, max_two]; cases k <;> rfl
  · cases k <;> rfl

example : (fromDocument .file .file .info ⟨.none, some 8, some 64, some 512, none⟩).maxLen = 64 := by decide

end Construct
end Soralog
