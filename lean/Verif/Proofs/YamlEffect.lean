import Verif.Proofs.YamlRead
/-!
# The effect of a document: sinks declared, nodes that have no effect
-/
namespace Soralog
namespace Yaml

open Soralog.System

/-! ### outcomes that differ in the problems reported only -/

/-- two outcomes that differ at most in the problems reported -/
def OutSim {α : Type} : Out α → Out α → Prop
  | .ok a s, .ok b t => a = b ∧ Quiet s t
  | .throw s, .throw t => Quiet s t
  | .ub, .ub => True
  | .diverge, .diverge => True
  | _, _ => False

def Sim {α : Type} (m m' : M α) : Prop := ∀ s t, Quiet s t → OutSim (m s) (m' t)

theorem Sim.bind {α β : Type} {m m' : M α} {k k' : α → M β} (h : Sim m m') (hk : ∀ a, Sim (k a) (k' a)) :
    Sim (m >>= k) (m' >>= k') := by
  intro s t hq
  rw [bind_def, bind_def]
  have h1 := h s t hq
  cases e1 : m s <;> cases e2 : m' t <;> rw [e1, e2] at h1 <;> simp only [OutSim] at h1
  · rename_i a s1 b t1
    obtain ⟨rfl, h2⟩ := h1
    exact hk a _ _ h2
  · exact h1
  · trivial
  · trivial

theorem give_sim {α : Type} (r : Option α) {s t : St} (h : Quiet s t) : OutSim (give r s) (give r t) := by
  cases r with
  | none => exact h
  | some a => exact ⟨rfl, h⟩

theorem Reading.sim {α : Type} {m m' : M α} {r : Sys → Option α} (h : Reading m r) (h' : Reading m' r) : Sim m m' := by
  intro s t hq
  obtain ⟨s1, h1, e1⟩ := h s
  obtain ⟨t1, h2, e2⟩ := h' t
  rw [e1, e2, hq.1]
  exact give_sim _ (h1.symm.trans (hq.trans h2))

theorem call_sim (F : Nat) (op : Op) : Sim (call F op) (call F op) := by
  intro s t hq
  unfold call
  rw [hq.1]
  cases step F s.sys op with
  | ret v y => exact ⟨rfl, rfl, hq.2⟩
  | throw y => exact ⟨rfl, hq.2⟩
  | ub => trivial
  | diverge => trivial

theorem createSink_sim (W : World) (name : Text) (spec : Spec) : Sim (createSink W name spec) (createSink W name spec) := by
  unfold createSink
  refine Sim.bind ?_ fun _ => Sim.bind ?_ fun _ => ?_
  · intro s t hq
    unfold allocate
    cases spec.cfg with
    | none => exact ⟨rfl, hq⟩
    | some c =>
      simp only
      split
      · exact ⟨rfl, hq⟩
      · exact hq
  · intro s t hq
    unfold openSyslog
    cases spec with
    | syslog i c =>
      simp only [hq.2.2]
      split
      · exact hq
      · exact ⟨rfl, hq.1, hq.2.1, rfl⟩
    | _ => exact ⟨rfl, hq⟩
  · intro s t hq
    unfold register
    rw [hq.1]
    cases makeSink name s.sys with
    | ret v y => exact ⟨rfl, rfl, by rw [hq.2.1], hq.2.2⟩
    | throw y => exact ⟨rfl, hq.2⟩
    | ub => trivial
    | diverge => trivial

theorem Creates.sim {W : World} {m m' : M Unit} {r : Option (Option (Text × Decl))} (h : Creates W m r) (h' : Creates W m' r) :
    Sim m m' := by
  intro s t hq
  obtain ⟨s1, h1, e1⟩ := h s
  obtain ⟨t1, h2, e2⟩ := h' t
  rw [e1, e2, hq.1]
  have h3 := h1.symm.trans (hq.trans h2)
  cases r with
  | none => exact h3
  | some o =>
    cases o with
    | none => exact ⟨rfl, h3⟩
    | some nd => exact createSink_sim W _ _ _ _ h3

theorem applyGroup_sim (F : Nat) (g : GroupNode) (parent : Option Text) : Sim (applyGroup F g parent) (applyGroup F g parent) := by
  intro s t hq
  rw [applyGroup_eq, applyGroup_eq, hq.1]
  have hfb : Sim (if g.isFallback then call F (.setFallbackGroup g.name) else pure () : M Unit)
      (if g.isFallback then call F (.setFallbackGroup g.name) else pure () : M Unit) := by
    split
    · exact call_sim F _
    · exact (Reading.pure ()).sim (Reading.pure ())
  cases getGroup g.name s.sys with
  | some old =>
    have h : Sim (updateGroup F g parent) (updateGroup F g parent) := by
      unfold updateGroup
      refine Sim.bind ?_ fun _ => Sim.bind ?_ fun _ => ?_
      · cases parent with
        | none => exact (Reading.pure ()).sim (Reading.pure ())
        | some p => exact call_sim F _
      · cases g.sink with
        | none => exact (Reading.pure ()).sim (Reading.pure ())
        | some p => exact call_sim F _
      · cases g.level with
        | none => exact (Reading.pure ()).sim (Reading.pure ())
        | some p => exact call_sim F _
    exact (Sim.bind h fun _ => hfb) s t hq
  | none => exact (Sim.bind (call_sim F _) fun _ => hfb) s t hq

/-! ### nodes without effect -/

/-- The element `n` of the list of sinks is not usable. -/
def SinkUseless (W : World) (n : Nat) : Prop :=
  match W.node n with
  | .map entries => readSink W entries = some none
  | _ => True

/-- what an element of the list of sinks does -/
def readItem (W : World) (n : Nat) : Option (Option (Text × Decl)) :=
  match W.node n with
  | .map entries => readSink W entries
  | _ => some none

theorem creates_item (W : World) (i n : Nat) :
    Creates W (parseSinkItem W i n) (readItem W n) := by
  unfold readItem parseSinkItem
  cases W.node n with
  | map entries => exact creates_parseSink W i entries
  | _ => exact Creates.none (Reading.report _)

theorem useless_item {W : World} {n : Nat} (h : SinkUseless W n) : readItem W n = some none := by
  unfold SinkUseless at h
  unfold readItem
  cases hn : W.node n with
  | map e => rw [hn] at h; exact h
  | _ => rfl

/-- leaving out unusable elements changes nothing but the problems reported -/
theorem sinkList_filter (W : World) (p : Nat → Bool) (items : List Nat) (h : ∀ n ∈ items, p n = false → SinkUseless W n) (i j : Nat) :
    Sim (parseSinkList W i items) (parseSinkList W j (items.filter p)) := by
  induction items generalizing i j with
  | nil => exact (Reading.pure ()).sim (Reading.pure ())
  | cons n ns ih =>
    have ih := ih fun m hm => h m (List.mem_cons_of_mem _ hm)
    cases hp : p n with
    | true =>
      rw [List.filter_cons_of_pos hp]
      unfold parseSinkList
      exact Sim.bind ((creates_item W i n).sim (creates_item W j n)) fun _ => ih _ _
    | false =>
      rw [List.filter_cons_of_neg (by simp [hp])]
      intro s t hq
      rw [parseSinkList]
      obtain ⟨s1, h1, e1⟩ := creates_item W i n s
      rw [useless_item (h n List.mem_cons_self hp)] at e1
      rw [bind_def, e1]
      exact ih (i + 1) j s1 t (h1.symm.trans hq)

/-! ### the effect of a list of sinks -/

/-- the sinks declared, in order -/
def declared (W : World) (items : List Nat) : List (Text × Decl) := items.filterMap fun n => (readItem W n).join

/-- the state with one more sink -/
def addSink (s : Sys × (Nat → Spec)) (d : Text × Decl) : Sys × (Nat → Spec) :=
  ({ s.1 with nsinks := s.1.nsinks + 1, sinkName := upd s.1.sinkName s.1.nsinks d.1, sinks := s.1.sinks.put d.1 s.1.nsinks },
   upd s.2 s.1.nsinks (d.2.resolve s.1.sinks))

theorem createSink_ok {W : World} {n : Text} {d : Decl} {s s' : St} (h : createSink W n (d.resolve s.sys.sinks) s = .ok () s') :
    (s'.sys, s'.specs) = addSink (s.sys, s.specs) (n, d) := by
  rcases createSink_cases W n (d.resolve s.sys.sinks) s with h1 | ⟨_, b, h1⟩ <;> rw [h1] at h <;> cases h
  rfl

theorem sinkList_ok {W : World} {items : List Nat} {i : Nat} {s s' : St} (h : parseSinkList W i items s = .ok () s') :
    (s'.sys, s'.specs) = (declared W items).foldl addSink (s.sys, s.specs) := by
  induction items generalizing i s with
  | nil => cases h; rfl
  | cons n ns ih =>
    unfold parseSinkList at h
    obtain ⟨s1, h1, e1⟩ := creates_item W i n s
    rw [bind_def, e1] at h
    have hc : (s1.sys, s1.specs) = (s.sys, s.specs) := by rw [h1.1, h1.2.1]
    unfold declared
    cases hr : readItem W n with
    | none => rw [hr] at h; cases h
    | some o =>
      rw [hr] at h
      cases o with
      | none =>
        rw [List.filterMap_cons_none (by rw [hr]; rfl)]
        rw [ih h, hc]; rfl
      | some nd =>
        obtain ⟨nm, d⟩ := nd
        rw [List.filterMap_cons_some (by rw [hr]; rfl), List.foldl_cons]
        simp only at h
        rw [← h1.1] at h
        cases hcr : createSink W nm (d.resolve s1.sys.sinks) s1 with
        | ok u s2 =>
          rw [hcr] at h
          have h2 := createSink_ok hcr
          rw [hc] at h2
          rw [← h2]
          exact ih h
        | throw s2 => rw [hcr] at h; cases h
        | ub => rw [hcr] at h; cases h
        | diverge => rw [hcr] at h; cases h

/-- the table of sinks with more sinks registered, numbered from `k` -/
def register1 (t : Table × Nat) (name : Text) : Table × Nat := (t.1.put name t.2, t.2 + 1)

theorem added_nil (s : Sys × (Nat → Spec)) : Added [] s s :=
  ⟨rfl, fun _ _ => ⟨rfl, rfl⟩, fun j d h => by simp at h, fun j d h => by simp at h, fun n => rfl, rfl⟩

theorem added_snoc {ds : List (Text × Decl)} {s s' : Sys × (Nat → Spec)} (h : Added ds s s') (d : Text × Decl) :
    Added (ds ++ [d]) s (addSink s' d) := by
  have hidx : ∀ j e, (ds ++ [d])[j]? = some e → (j < ds.length ∧ ds[j]? = some e) ∨ (j = ds.length ∧ e = d) := by
    intro j e hj
    by_cases hlt : j < ds.length
    · rw [List.getElem?_append_left hlt] at hj; exact .inl ⟨hlt, hj⟩
    · have hle := Nat.not_lt.1 hlt
      rw [List.getElem?_append_right hle] at hj
      cases hk : j - ds.length with
      | zero =>
        rw [hk] at hj
        cases hj
        exact .inr ⟨by omega, rfl⟩
      | succ k => rw [hk] at hj; cases hj
  refine ⟨?_, ?_, ?_, ?_, ?_, ?_⟩
  · simp only [addSink, h.count, List.length_append, List.length_singleton, Nat.add_assoc]
  · intro k hk
    have hlt : k ≠ s'.1.nsinks := by rw [h.count]; omega
    simp only [addSink, upd_other _ _ hlt]
    exact h.old k hk
  · intro j e hj
    rcases hidx j e hj with ⟨hlt, he⟩ | ⟨rfl, rfl⟩
    · have : s.1.nsinks + j ≠ s'.1.nsinks := by rw [h.count]; omega
      simp only [addSink, upd_other _ _ this]
      exact h.name j e he
    · simp only [addSink, h.count, upd_same]
  · intro j e hj
    rcases hidx j e hj with ⟨hlt, he⟩ | ⟨rfl, rfl⟩
    · have hne : s.1.nsinks + j ≠ s'.1.nsinks := by rw [h.count]; omega
      obtain ⟨t, ht, hs⟩ := h.spec j e he
      refine ⟨t, ?_, ?_⟩
      · rw [List.take_append_of_le_length (Nat.le_of_lt hlt)]; exact ht
      · simp only [addSink, upd_other _ _ hne]; exact hs
    · refine ⟨s'.1.sinks, ?_, ?_⟩
      · rw [List.take_left' rfl]
        exact h.table
      · simp only [addSink, h.count, upd_same]
  · intro n
    simp only [addSink, Table.find_put, List.reverse_append, List.reverse_cons, List.reverse_nil, List.nil_append,
      List.cons_append, List.findIdx?_cons, List.length_append, List.length_singleton]
    by_cases hn : n = d.1
    · subst hn
      simp only [if_true, beq_self_eq_true, h.count]
      congr 1
    · have : (d.1 == n) = false := by
        cases hb : (d.1 == n) with
        | false => rfl
        | true => exact absurd (eq_of_beq hb).symm hn
      simp only [if_neg hn, this, Bool.false_eq_true, if_false]
      rw [h.table n]
      cases ds.reverse.findIdx? (·.1 == n) with
      | none => rfl
      | some i =>
        simp only [Option.map_some]
        congr 2
        omega
  · have h1 := h.rest
    simp only [addSink]
    rw [h1]

theorem added_foldl (ds : List (Text × Decl)) (s : Sys × (Nat → Spec)) : Added ds s (ds.foldl addSink s) := by
  have key : ∀ (es ds : List (Text × Decl)) (s' : Sys × (Nat → Spec)), Added ds s s' → Added (ds ++ es) s (es.foldl addSink s') := by
    intro es
    induction es with
    | nil => intro ds s' h; rw [List.append_nil]; exact h
    | cons e es ih =>
      intro ds s' h
      have := ih (ds ++ [e]) (addSink s' e) (added_snoc h e)
      rw [List.append_assoc] at this
      exact this
  exact key ds [] s (added_nil s)

end Yaml
end Soralog
