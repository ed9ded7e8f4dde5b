import Verif.Props.Yaml
import Verif.Props.Render
/-!
# C06 for the sinks of documents
-/
namespace Soralog
namespace Yaml

/-- a number of a document, or a default below 2^31 -/
theorem numberOr_lt {W : World} {m : List (Nat × Nat)} {key : Text} {ok : Int → Text → Bool} {d : Nat} (hd : d < 2 ^ 31) :
    numberOr W m key ok d < 2 ^ 31 := by
  unfold numberOr
  split
  · rename_i i t h
    split
    · obtain ⟨t', _, h2⟩ := Option.bind_eq_some_iff.1 h
      obtain ⟨i', h3, h4⟩ := Option.map_eq_some_iff.1 h2
      cases h4
      have := W.asInt_range _ _ h3
      omega
    · exact hd
  · exact hd

/-- **C06** for documents: whatever the document, the slots of every sink it declares lie inside the memory of the queue, aligned and
without overlap, each with room for the longest message. -/
theorem C06_document_slots {W : World} {F root : Nat} {e : List (Nat × Nat)} (hroot : W.node root = .map e) {s s' : St} {r : Result}
    (h : applyOn W F (.yaml (.document root)) s = .ok r s') (k : Nat) (h1 : s.sys.nsinks ≤ k) (h2 : k < s'.sys.nsinks) (q : Sink.Cfg)
    (hq : (s'.specs k).cfg = some q) (i : Nat) (hi : i < q.capacity) :
    Layout.eventAlign ∣ Layout.itemAt Layout.eventSize Layout.eventAlign q.maxLen i ∧
    Layout.messageAt Layout.eventSize Layout.eventAlign q.maxLen i + q.maxLen ≤
      Layout.rawSize Layout.eventSize Layout.eventAlign q.capacity q.maxLen ∧
    ∀ j, i < j → j < q.capacity →
      Layout.messageAt Layout.eventSize Layout.eventAlign q.maxLen i + q.maxLen ≤
        Layout.slotOffset Layout.eventSize Layout.eventAlign q.maxLen j := by
  obtain ⟨n, m, console, _, _, _, hv⟩ := C48_values hroot h k h1 h2 q hq
  have hc : q.capacity < 2 ^ 31 := by
    rw [hv]
    exact numberOr_lt (by cases console <;> decide)
  have hm : q.maxLen < 2 ^ 31 := by
    rw [hv]
    exact numberOr_lt (by decide)
  have ht : q.capacity * (8 + 104 + q.maxLen + 8) < 2 ^ 64 := by
    have h3 : q.capacity * (8 + 104 + q.maxLen + 8) ≤ 2 ^ 31 * (8 + 104 + q.maxLen + 8) := Nat.mul_le_mul_right _ (by omega)
    omega
  have he : Layout.eventSize = 104 ∧ Layout.eventAlign = 8 := by decide
  rw [he.1, he.2]
  obtain ⟨a1, _, _, a4, a5⟩ := Layout.C06_slots 104 8 q.capacity q.maxLen (by omega) (by decide) (by omega) ht i hi
  exact ⟨a1, a4, a5⟩

/-- the console of the example document, see `C48_values` -/
example : demoRun.shows (fun _ s => (s.specs 1).cfg.map fun q => (q.capacity, q.maxLen)) = some (some (8, 1024)) := by decide +kernel
example : Layout.rawSize Layout.eventSize Layout.eventAlign 8 1024 = 9088 ∧ Layout.messageAt Layout.eventSize Layout.eventAlign 1024 7 + 1024 = 9088 := by decide

end Yaml
end Soralog
