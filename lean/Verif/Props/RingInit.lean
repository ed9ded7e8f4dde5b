import Verif.Model.RingInit
import Verif.Props.LayoutDoc
/-!
# C108: a queue is ready when it has been constructed
-/
namespace Soralog
namespace RingInit
open Layout

/-- The slots of a queue are ready: each slot got a node, in order and once; what was constructed lies in slots; no node is in use. -/
structure Ready (sz al capacity padding : Nat) (m : Mem) : Prop where
  /-- the nodes constructed are those of the slots `0, 1, …, capacity - 1`, each once -/
  each : m.made = (List.range capacity).map (slotOffset sz al padding)
  /-- `put` and `get` find the flag of every slot clear -/
  free : ∀ i, i < capacity → m.flag (slotOffset sz al padding i) = some false
  /-- nothing else in the memory is a flag -/
  only : ∀ x, m.flag x ≠ none → ∃ i, i < capacity ∧ x = slotOffset sz al padding i

/-- what the loop has done before it gets to `index` -/
structure Begun (sz al padding index : Nat) (m : Mem) : Prop where
  each : m.made = (List.range index).map (slotOffset sz al padding)
  free : ∀ i, i < index → m.flag (slotOffset sz al padding i) = some false
  only : ∀ x, m.flag x ≠ none → ∃ i, i < index ∧ x = slotOffset sz al padding i

theorem Begun.next {sz al padding index : Nat} {m : Mem} (h : Begun sz al padding index m) :
    Begun sz al padding (index + 1) (m.node (slotOffset sz al padding index)) := by
  refine ⟨?_, fun i hi => ?_, fun x hx => ?_⟩
  · show m.made ++ _ = _
    rw [h.each, List.range_succ, List.map_append, List.map_cons, List.map_nil]
  · show (if _ then _ else _) = _
    by_cases e : slotOffset sz al padding i = slotOffset sz al padding index
    · rw [if_pos e]
    · rw [if_neg e]
      by_cases hn : i = index
      · exact absurd (by rw [hn]) e
      · exact h.free i (by omega)
  · by_cases e : x = slotOffset sz al padding index
    · exact ⟨index, by omega, e⟩
    · have hx : (if x = slotOffset sz al padding index then some false else m.flag x) ≠ none := hx
      rw [if_neg e] at hx
      obtain ⟨i, hi, hi2⟩ := h.only x hx
      exact ⟨i, by omega, hi2⟩

theorem loop_ready {sz al capacity padding : Nat} (hc : capacity ≤ intMax) (n index : Nat) (hn : capacity - index = n) (hi : index ≤ capacity) (m : Mem)
    (h : Begun sz al padding index m) : ∃ m', loop sz al capacity padding index m = some m' ∧ Ready sz al capacity padding m' := by
  induction n generalizing index m with
  | zero =>
    have e : index = capacity := by omega
    refine ⟨m, ?_, ?_⟩
    · rw [loop, if_neg (by omega)]
    · rw [e] at h; exact ⟨h.each, h.free, h.only⟩
  | succ n ih =>
    rw [loop, if_pos (by omega), dif_pos (by omega)]
    exact ih (index + 1) (by omega) (by omega) _ h.next

theorem loop_overflows {sz al capacity padding : Nat} (hc : intMax < capacity) (n index : Nat) (hn : intMax - index = n) (hi : index ≤ intMax) (m : Mem) :
    loop sz al capacity padding index m = none := by
  induction n generalizing index m with
  | zero => rw [loop, if_pos (by omega), dif_neg (by omega)]
  | succ n ih =>
    rw [loop, if_pos (by omega), dif_pos (by omega)]
    exact ih (index + 1) (by omega) (by omega) _

/-- **C108**.  For all element types, paddings and capacities up to 2^31 - 1 the constructor returns and leaves every slot with one node that
is not in use, and no node elsewhere. -/
theorem C108_ready_partial (sz al capacity padding : Nat) (hc : capacity ≤ 2 ^ 31 - 1) :
    ∃ m, construct sz al capacity padding = some m ∧ Ready sz al capacity padding m :=
  loop_ready hc _ 0 rfl (Nat.zero_le _) _ ⟨rfl, (fun i hi => by omega), (fun x hx => absurd rfl hx)⟩

example : ∃ m, construct 104 8 3 65 = some m ∧ m.made = [0, 184, 368] := by
  obtain ⟨m, h1, h2⟩ := C108_ready_partial 104 8 3 65 (by decide)
  exact ⟨m, h1, by rw [h2.each]; decide⟩

/-- **C108**, that is all: with a larger capacity the index of the loop overflows. -/
theorem C108_ready_iff (sz al capacity padding : Nat) : construct sz al capacity padding ≠ none ↔ capacity ≤ 2 ^ 31 - 1 := by
  constructor
  · intro h
    refine Nat.le_of_not_lt fun hc => h ?_
    exact loop_overflows hc _ 0 rfl (Nat.zero_le _) _
  · intro hc
    obtain ⟨m, h1, _⟩ := C108_ready_partial sz al capacity padding hc
    rw [h1]
    exact (nomatch ·)

/-- **C108** as a user relies on it -- for every capacity whose bytes can be counted in `size_t` -- is false. -/
theorem C108_refuted : ∃ capacity padding, capacity * (120 + padding) < 2 ^ 64 ∧ construct eventSize eventAlign capacity padding = none :=
  ⟨2 ^ 31, 1024, by decide, Classical.byContradiction fun h => absurd ((C108_ready_iff _ _ _ _).1 h) (by decide)⟩

/-- **C108**, nodes do not touch each other: in a queue whose bytes can be counted, the nodes constructed are at different places, each with its
element and the bytes of the message inside the allocation. -/
theorem C108_apart (capacity maxLen : Nat) (hc : capacity ≤ 2 ^ 31 - 1) (hm : capacity * (120 + maxLen) < 2 ^ 64) (hl : maxLen < 2 ^ 63) :
    ∃ m, construct eventSize eventAlign capacity maxLen = some m ∧ m.made.length = capacity ∧ m.made.Nodup ∧
      ∀ x ∈ m.made, x + itemOffset eventAlign + eventSize + maxLen ≤ rawSize eventSize eventAlign capacity maxLen := by
  obtain ⟨m, h1, h2⟩ := C108_ready_partial eventSize eventAlign capacity maxLen hc
  refine ⟨m, h1, by rw [h2.each, List.length_map, List.length_range], ?_, fun x hx => ?_⟩
  · rw [h2.each]
    refine List.pairwise_map.2 (List.Pairwise.imp_of_mem (fun {a b} ha hb hab => ?_) (List.pairwise_lt_range (n := capacity)))
    have ha := List.mem_range.1 ha
    have hb := List.mem_range.1 hb
    have h3 := (C06_event_slots capacity maxLen hm hl a ha).2 b hab hb
    have h4 : slotOffset eventSize eventAlign maxLen a < messageAt eventSize eventAlign maxLen a := by
      unfold messageAt itemAt
      have : eventSize = 104 := by decide
      omega
    omega
  · rw [h2.each] at hx
    obtain ⟨i, hi, rfl⟩ := List.mem_map.1 hx
    exact (C06_event_slots capacity maxLen hm hl i (List.mem_range.1 hi)).1

/-- the defaults of a file: 2048 events of up to 1024 characters -/
example : ∃ m, construct eventSize eventAlign 2048 1024 = some m ∧ m.made.Nodup ∧ m.made.length = 2048 := by
  obtain ⟨m, h1, h2, h3, _⟩ := C108_apart 2048 1024 (by decide) (by decide) (by decide)
  exact ⟨m, h1, h3, h2⟩

/-- **C108**, the state of the queue model is the one the constructor leaves: every flag clear, no `NodeRef`, nothing in the queue. -/
theorem C108_initial (T : Type) (sz al capacity padding : Nat) (m : Mem) (h : construct sz al capacity padding = some m) :
    (∀ i, i < capacity → m.flag (slotOffset sz al padding i) = some ((Ring.init T capacity).buf.nodeBusy i)) ∧
    (Ring.init T capacity).buf.size = 0 ∧ (Ring.init T capacity).buf.capacity = capacity := by
  have hc : capacity ≤ 2 ^ 31 - 1 := (C108_ready_iff sz al capacity padding).1 (by rw [h]; exact (nomatch ·))
  obtain ⟨m', h1, h2⟩ := C108_ready_partial sz al capacity padding hc
  rw [h] at h1
  cases h1
  exact ⟨fun i hi => h2.free i hi, rfl, rfl⟩

end RingInit

namespace Yaml

/-- **C108** for documents: whatever the document, the constructors of the queues of all its sinks return, and the queues are ready. -/
theorem C108_document {W : World} {F root : Nat} {e : List (Nat × Nat)} (hroot : W.node root = .map e) {s s' : St} {r : Result}
    (h : applyOn W F (.yaml (.document root)) s = .ok r s') (k : Nat) (h1 : s.sys.nsinks ≤ k) (h2 : k < s'.sys.nsinks) (q : Sink.Cfg)
    (hq : (s'.specs k).cfg = some q) :
    ∃ m, RingInit.construct Layout.eventSize Layout.eventAlign q.capacity q.maxLen = some m ∧
      RingInit.Ready Layout.eventSize Layout.eventAlign q.capacity q.maxLen m := by
  obtain ⟨n, m, console, _, _, _, hv⟩ := C48_values hroot h k h1 h2 q hq
  have hc : q.capacity < 2 ^ 31 := by
    rw [hv]
    exact numberOr_lt (by cases console <;> decide)
  exact RingInit.C108_ready_partial _ _ _ _ (by omega)

end Yaml
end Soralog
