import Verif.Spec.Whole
import Verif.Props.SinkTree
import Verif.Props.YamlMore
import Verif.Props.Syslog
/-!
# The whole program: the sinks of the system and what they have accepted
-/
namespace Soralog
namespace Yaml

open Soralog.System

/-! ### the parameters of the sinks of a system -/

/-- the underlying sinks existed before -/
def GoodSpec (k : Nat) (spec : Spec) : Prop := ∀ lv subs, spec = .multi lv subs → ∀ j ∈ subs, j < k

structure SinksOk (s : St) : Prop where
  table : ∀ n k, s.sys.sinks.find n = some k → k < s.sys.nsinks
  beyond : ∀ k, s.sys.nsinks ≤ k → s.specs k = .nowhere
  good : ∀ k, GoodSpec k (s.specs k)

/-- sinks are only added, and properly -/
def SinksGrow (s s' : St) : Prop :=
  SinksOk s → SinksOk s' ∧ s.sys.nsinks ≤ s'.sys.nsinks ∧ ∀ k, k < s.sys.nsinks → s'.specs k = s.specs k

instance : Pre SinksGrow where
  refl _ := fun h => ⟨h, Nat.le_refl _, fun _ _ => rfl⟩
  trans h1 h2 := fun h => by
    obtain ⟨a1, a2, a3⟩ := h1 h
    obtain ⟨b1, b2, b3⟩ := h2 a1
    exact ⟨b1, Nat.le_trans a2 b2, fun k hk => by rw [b3 k (Nat.lt_of_lt_of_le hk a2), a3 k hk]⟩

/-- nothing about sinks has changed -/
theorem SinksGrow.same {s s' : St} (h1 : s'.sys.nsinks = s.sys.nsinks) (h2 : s'.sys.sinks = s.sys.sinks) (h3 : s'.specs = s.specs) : SinksGrow s s' := by
  intro h
  refine ⟨⟨?_, ?_, ?_⟩, Nat.le_of_eq h1.symm, fun k _ => by rw [h3]⟩
  · rw [h1, h2]; exact h.table
  · rw [h1, h3]; exact h.beyond
  · rw [h3]; exact h.good

instance : Reads SinksGrow where
  error _ _ _ := fun s => ⟨SinksGrow.same (s := s) rfl rfl rfl, trivial⟩
  warning _ _ _ := fun s => ⟨SinksGrow.same (s := s) rfl rfl rfl, trivial⟩

instance (W : World) (F : Nat) : Groups W F SinksGrow where
  noName _ := fun s => ⟨SinksGrow.same (s := s) rfl rfl rfl, trivial⟩
  apply h1 h2 h3 := tri_applyGroup (fun op s y v ho h => by
    have h4 := step_sinks ho.1 ho.2 h
    exact .same h4.1 h4.2.1 rfl) h1 h2 h3

theorem sinksGrow_created {s : St} {b : Bool} {spec : Spec} {name : Text} (hg : GoodSpec s.sys.nsinks spec) :
    SinksGrow s { s with
      syslogOpen := b, specs := upd s.specs s.sys.nsinks spec,
      sys := { s.sys with nsinks := s.sys.nsinks + 1, sinkName := upd s.sys.sinkName s.sys.nsinks name,
                          sinks := s.sys.sinks.put name s.sys.nsinks } } := by
  intro h
  refine ⟨⟨?_, ?_, ?_⟩, Nat.le_succ _, fun k hk => upd_other _ _ (Nat.ne_of_lt hk)⟩
  · intro n k hf
    show k < s.sys.nsinks + 1
    by_cases hn : n = name
    · subst hn
      have : (s.sys.sinks.put n s.sys.nsinks).find n = some s.sys.nsinks := Table.find_put_self ..
      cases this.symm.trans hf
      exact Nat.lt_succ_self _
    · have : (s.sys.sinks.put name s.sys.nsinks).find n = s.sys.sinks.find n := Table.find_put_ne _ _ hn
      exact Nat.lt_succ_of_lt (h.table n k (this.symm.trans hf))
  · intro k hk
    have hk : s.sys.nsinks + 1 ≤ k := hk
    show upd s.specs s.sys.nsinks spec k = _
    rw [upd_other _ _ (by omega)]
    exact h.beyond k (by omega)
  · intro k
    show GoodSpec k (upd s.specs s.sys.nsinks spec k)
    by_cases hk : k = s.sys.nsinks
    · subst hk; rw [upd_same]; exact hg
    · rw [upd_other _ _ hk]; exact h.good k

theorem sinksGrow_createSink {W : World} {name : Text} {spec : Spec} {s : St} (hg : GoodSpec s.sys.nsinks spec) :
    match createSink W name spec s with
    | .ok _ s' => SinksGrow s s'
    | .throw s' => SinksGrow s s'
    | _ => True := by
  rcases createSink_cases W name spec s with h | ⟨_, b, h⟩
  · rw [h]; exact Pre.refl (P := SinksGrow) s
  · rw [h]; exact sinksGrow_created hg

theorem resolve_good {d : Decl} {t : Table} {N : Nat} (ht : ∀ n k, t.find n = some k → k < N) : GoodSpec N (d.resolve t) := by
  intro lv subs h j hj
  cases d with
  | multi l names =>
    cases h
    obtain ⟨n, _, hn⟩ := List.mem_filterMap.1 hj
    exact ht n j hn
  | _ => cases h

theorem Quiet.grows {s s' : St} (h : Quiet s s') : SinksGrow s s' := .same (by rw [h.1]) (by rw [h.1]) h.2.1

theorem sinksGrow_sinkItem (W : World) (i n : Nat) : Tri SinksGrow Any (parseSinkItem W i n) := by
  intro s
  obtain ⟨s1, h1, e1⟩ := creates_item W i n s
  rw [e1]
  cases hr : readItem W n with
  | none => exact h1.grows
  | some o =>
    cases o with
    | none => exact ⟨h1.grows, trivial⟩
    | some nd =>
      obtain ⟨name, d⟩ := nd
      simp only
      rcases createSink_cases W name (d.resolve s.sys.sinks) s1 with h | ⟨_, b, h⟩
      · rw [h]; exact h1.grows
      · rw [h]
        refine ⟨fun h0 => ?_, trivial⟩
        have ha := h1.grows h0
        have hg : GoodSpec s1.sys.nsinks (d.resolve s.sys.sinks) := by
          rw [h1.1]; exact resolve_good h0.table
        have hb := sinksGrow_created (name := name) (b := b) hg ha.1
        exact ⟨hb.1, Nat.le_trans ha.2.1 hb.2.1, fun k hk => by
          rw [hb.2.2 k (Nat.lt_of_lt_of_le hk ha.2.1), ha.2.2 k hk]⟩

theorem sinksGrow_sinkList (W : World) (items : List Nat) (i : Nat) : Tri SinksGrow Any (parseSinkList W i items) := by
  induction items generalizing i with
  | nil => exact Tri.pure trivial
  | cons n ns ih => exact Tri.bind (sinksGrow_sinkItem W i n) fun _ _ => ih _

theorem sinksGrow_parse (W : World) (F : Nat) (root : Node) : Tri SinksGrow Any (parse W F root) := by
  unfold parse
  split
  · simp only
    refine Tri.bind (Q := Any) ?_ fun _ _ => ?_
    · split
      · exact Reads.error _ rfl rfl
      · exact Tri.pure trivial
    refine Tri.bind (tri_checkKeys W _ _ _ (fun _ => rfl) fun _ => rfl) fun _ _ => ?_
    refine Tri.bind (Q := Any) ?_ fun _ _ => ?_
    · split
      · unfold parseSinks
        split
        · exact Reads.error _ rfl rfl
        · exact sinksGrow_sinkList W _ _
        · exact Reads.error _ rfl rfl
      · exact Tri.pure trivial
    · split
      · exact tri_parseGroups W F _
      · exact Tri.pure trivial
  · exact Reads.error _ rfl rfl

theorem makeGroup_sinks {F : Nat} {s y : Sys} {n : Text} {p k : Option Text} {l : Option Level} {v : Val}
    (h : step F s (.makeGroup n p k l) = .ret v y ∨ step F s (.makeGroup n p k l) = .throw y) :
    y.nsinks = s.nsinks ∧ y.sinks = s.sinks := by
  simp only [step, makeGroup] at h
  revert h
  repeat' split
  all_goals (intro h; rcases h with h | h <;> cases h; exact ⟨rfl, rfl⟩)

theorem sinksGrow_applyOn (W : World) (F : Nat) (c : Configurator) : Tri SinksGrow Any (applyOn W F c) := by
  refine tri_applyOn (sinksGrow_parse W F) (fun s => .same rfl rfl rfl) (fun p s => ⟨SinksGrow.same (s := s) rfl rfl rfl, trivial⟩) ?_ c
  intro level color
  unfold applyFallback
  refine Tri.bind (Q := Any) ?_ fun _ _ => Tri.bind (Q := Any) ?_ fun _ _ => Tri.pure trivial
  · exact tri_createSink fun s b _ => sinksGrow_created fun lv subs h => by cases h
  · refine call_tri fun s y v h => ?_
    have h1 := makeGroup_sinks h
    exact .same h1.1 h1.2 rfl

theorem sinksGrow_configure {W : World} {F : Nat} {what : Text} {c : Configurator} {s s' : St} {r : Result}
    (h : configure W F what c s = .ok r s') : SinksGrow s s' := by
  have h1 := configure_tri (sinksGrow_applyOn W F c) h
  exact fun h0 => h1 ((SinksGrow.same (s := s) (s' := started s) rfl rfl rfl) h0).1

/-! ### queues of configured sinks -/

/-- the queue is usable and it is one of a console, a file or syslog -/
def UsableCfg (c : Sink.Cfg) : Prop := Sane c ∧ c.kind ≠ .nowhere

def NewUsable (s s' : St) : Prop :=
  s.sys.nsinks ≤ s'.sys.nsinks ∧ (∀ k, k < s.sys.nsinks → s'.specs k = s.specs k) ∧
  ∀ k, s.sys.nsinks ≤ k → k < s'.sys.nsinks → ∀ c, (s'.specs k).cfg = some c → UsableCfg c

instance : Pre NewUsable where
  refl s := ⟨Nat.le_refl _, fun _ _ => rfl, fun k h1 h2 => absurd h2 (Nat.not_lt.2 h1)⟩
  trans := by
    rintro a b c ⟨h1, h2, h3⟩ ⟨h4, h5, h6⟩
    refine ⟨Nat.le_trans h1 h4, fun k hk => by rw [h5 k (Nat.lt_of_lt_of_le hk h1), h2 k hk], fun k hk1 hk2 => ?_⟩
    by_cases hb : k < b.sys.nsinks
    · rw [h5 k hb]; exact h3 k hk1 hb
    · exact h6 k (Nat.not_lt.1 hb) hk2

theorem fromNode_usable {W : World} {e : List (Nat × Nat)} {spec : Spec} (h : FromNode W e spec) {c : Sink.Cfg} (hc : spec.cfg = some c) :
    UsableCfg c := by
  refine ⟨fromNode_sane h hc, ?_⟩
  cases h with
  | multi => cases hc
  | _ => cases hc; intro h; cases h

theorem newUsable_applyOn (W : World) (F : Nat) (c : Configurator) : Tri NewUsable Any (applyOn W F c) := by
  refine tri_applyOn (fun root => ?_) (fun s => Pre.refl (P := NewUsable) s) (fun p s => ⟨Pre.refl (P := NewUsable) s, trivial⟩) ?_ c
  · refine (tri_parse W F root (P := NewSinks W)).weaken fun s s' ⟨h1, h2, h3⟩ => ⟨h1, h2, fun k hk1 hk2 c hc => ?_⟩
    obtain ⟨e, he, _⟩ := h3 k hk1 hk2
    exact fromNode_usable he hc
  · intro level color
    unfold applyFallback
    refine Tri.bind (Q := Any) ?_ fun _ _ => Tri.bind (Q := Any) ?_ fun _ _ => Tri.pure trivial
    · refine tri_createSink fun s b _ => ⟨Nat.le_succ _, fun k hk => upd_other _ _ (Nat.ne_of_lt hk), fun k h1 h2 c hc => ?_⟩
      have : k = s.sys.nsinks := Nat.le_antisymm (Nat.lt_succ_iff.1 h2) h1
      subst this
      simp only [upd_same] at hc
      cases hc
      exact ⟨⟨(by decide : 4 ≤ 64), (by decide : 64 ≤ 1024), (by decide : 416 ≤ 2 ^ 17), (by decide : 2 * 1024 ≤ 2 ^ 17)⟩,
        fun h => by cases h⟩
    · refine call_tri fun s y v h => ?_
      have h1 := makeGroup_sinks h
      refine ⟨Nat.le_of_eq h1.1.symm, fun _ _ => rfl, fun k hk1 hk2 => ?_⟩
      exact absurd hk1 (Nat.not_le.2 (by rw [← h1.1]; exact hk2))

/-! ### histories of the system -/

theorem keepsAny_applyOn {ok : Sys → Op → Prop} (h1 : ∀ s op, yamlOp s op → ok s op)
    (h2 : ∀ s level, ok s (.makeGroup star none (some "console".toList) (some level)))
    (h3 : ∀ s n, ok s (.makeSink n))
    (W : World) (F : Nat) (c : Configurator) : Tri (Keeps ok) Any (applyOn W F c) := by
  refine tri_applyOn (fun root => ?_) (fun s => id) (fun p s => ⟨id, trivial⟩) ?_ c
  · exact (tri_parse W F root (P := CallsOnly)).weaken fun s s' h hr => Calls.reach h hr h1
  · intro level color
    unfold applyFallback
    refine Tri.bind (Q := Any) (keeps_createSink h3 _ _) fun _ _ => Tri.bind (Q := Any) ?_ fun _ _ => Tri.pure trivial
    · refine call_tri fun s y v h hr => ?_
      rcases h with h | h
      · exact .call hr (h2 _ level) h
      · exact .failed hr (h2 _ level) h

end Yaml

namespace Whole

open Spec Sink

/-! ### the tree of a sink -/

def Below (specs : Nat → Yaml.Spec) : Prop := ∀ k, Yaml.GoodSpec k (specs k)

theorem treeUpTo_eq {specs : Nat → Yaml.Spec} (h : Below specs) : ∀ (n m k : Nat), k < n → k < m → treeUpTo specs n k = treeUpTo specs m k := by
  intro n
  induction n with
  | zero => intro m k h1; exact absurd h1 (Nat.not_lt_zero _)
  | succ n ih =>
    intro m k h1 h2
    cases m with
    | zero => exact absurd h2 (Nat.not_lt_zero _)
    | succ m =>
      unfold treeUpTo
      cases hs : specs k with
      | multi lv subs =>
        simp only
        congr 1
        refine List.map_congr_left fun j hj => ?_
        have := h k lv subs hs j hj
        exact ih m j (by omega) (by omega)
      | _ => rfl

theorem tree_multi {specs : Nat → Yaml.Spec} (h : Below specs) {k : Nat} {lv : Level} {subs : List Nat} (hs : specs k = .multi lv subs) :
    tree specs k = .multi lv (subs.map (tree specs)) := by
  unfold tree
  rw [treeUpTo, hs]
  simp only
  congr 1
  refine List.map_congr_left fun j hj => ?_
  have := h k lv subs hs j hj
  exact treeUpTo_eq h _ _ _ (by omega) (by omega)

theorem tree_leaf {specs : Nat → Yaml.Spec} {k : Nat} (hs : ∀ lv subs, specs k ≠ .multi lv subs) : tree specs k = .leaf k := by
  unfold tree
  rw [treeUpTo]
  split
  · rename_i lv subs h; exact absurd h (hs lv subs)
  · rfl

theorem fullAll_map {f : Nat → Snk} {subs : List Nat} (h : ∀ j ∈ subs, Full (f j)) : FullAll (subs.map f) := by
  induction subs with
  | nil => trivial
  | cons j js ih => exact ⟨h j List.mem_cons_self, ih fun i hi => h i (List.mem_cons_of_mem _ hi)⟩

theorem tree_full {specs : Nat → Yaml.Spec} (h : Below specs) (hn : ∀ k lv, specs k ≠ .multi lv []) (k : Nat) : Full (tree specs k) := by
  induction k using Nat.strongRecOn with
  | ind k ih =>
    by_cases hm : ∃ lv subs, specs k = .multi lv subs
    · obtain ⟨lv, subs, hs⟩ := hm
      rw [tree_multi h hs]
      refine ⟨?_, fullAll_map fun j hj => ih j (h k lv subs hs j hj)⟩
      cases subs with
      | nil => exact absurd hs (hn k lv)
      | cons j js => intro h; cases h
    · rw [tree_leaf fun lv subs hs => hm ⟨lv, subs, hs⟩]; trivial

/-- trees of sinks that existed before are the same -/
theorem tree_same {specs specs' : Nat → Yaml.Spec} (h : Below specs) (h' : Below specs') {N : Nat} (he : ∀ k, k < N → specs' k = specs k) :
    ∀ k, k < N → tree specs' k = tree specs k := by
  intro k
  induction k using Nat.strongRecOn with
  | ind k ih =>
    intro hk
    by_cases hm : ∃ lv subs, specs k = .multi lv subs
    · obtain ⟨lv, subs, hs⟩ := hm
      rw [tree_multi h hs, tree_multi h' (by rw [he k hk]; exact hs)]
      congr 1
      refine List.map_congr_left fun j hj => ?_
      have := h k lv subs hs j hj
      exact ih j this (by omega)
    · rw [tree_leaf fun lv subs hs => hm ⟨lv, subs, hs⟩, tree_leaf fun lv subs hs => hm ⟨lv, subs, by rw [← he k hk]; exact hs⟩]

/-! ### one sink -/

def cfgOf (spec : Yaml.Spec) : Cfg := spec.cfg.getD Cfg.nowhere

theorem ownLevel_eq (spec : Yaml.Spec) : ownLevel spec = (cfgOf spec).level := by
  unfold ownLevel cfgOf
  cases spec.cfg <;> rfl

/-- whether the sink could be opened -/
def opens (E : Env) (k : Nat) (spec : Yaml.Spec) : Bool :=
  match (cfgOf spec).kind with
  | .file => E.opened k
  | _ => true

/-- The sink `k` has accepted what is owed to it, and written it. -/
structure LeafInv (E : Env) (k : Nat) (spec : Yaml.Spec) (owed : List Msg) (l : Leaf) : Prop where
  cfg : l.cfg = cfgOf spec
  w : l.w = E.world k
  ok : l.Ok (opens E k spec)
  queue : l.queue = []
  accepted : l.accepted = eventsOf (E.world k).env (cfgOf spec).ti (cfgOf spec).maxLen 0 owed

theorem new_ok' (E : Env) (k : Nat) (spec : Yaml.Spec) : (Leaf.new (cfgOf spec) (E.world k) (E.opened k)).Ok (opens E k spec) := by
  have h1 := new_ok (cfgOf spec) (E.world k) (opens E k spec)
  refine ⟨fun ho => ?_, h1.cap, h1.size, ⟨[], rfl, fun _ _ => rfl⟩, h1.zero, h1.null⟩
  unfold opens at ho
  unfold Leaf.new
  simp only
  split
  · rename_i h; rw [h] at ho; exact ho
  · rfl

theorem leafFor_eq (E : Env) (k : Nat) (spec : Yaml.Spec) : leafFor E k spec = Leaf.new (cfgOf spec) (E.world k) (E.opened k) := by
  unfold leafFor cfgOf
  cases spec.cfg <;> rfl

theorem leafInv_new (E : Env) (k : Nat) (spec : Yaml.Spec) : LeafInv E k spec [] (leafFor E k spec) := by
  rw [leafFor_eq]
  exact ⟨rfl, rfl, new_ok' E k spec, rfl, rfl⟩

/-! ### calls on the heap -/

/-- a usable parameter set -/
def ValidSpec (spec : Yaml.Spec) : Prop := ∀ c, spec.cfg = some c → 1 ≤ c.capacity ∧ c.kind ≠ .nowhere

theorem valid_cfgOf {spec : Yaml.Spec} (h : ValidSpec spec) : (cfgOf spec).Valid := by
  unfold cfgOf
  cases hc : spec.cfg with
  | none => exact ⟨by decide, fun _ => rfl⟩
  | some c => exact ⟨(h c hc).1, fun hk => absurd hk (h c hc).2⟩

/-- all sinks -/
def HeapInv (E : Env) (specs : Nat → Yaml.Spec) (owed : Nat → List Msg) (h : Heap) : Prop :=
  ∀ k, LeafInv E k (specs k) (owed k) (h.leaf k)

theorem HeapInv.ok {E : Env} {specs : Nat → Yaml.Spec} {owed : Nat → List Msg} {h : Heap} (hi : HeapInv E specs owed h)
    (hv : ∀ k, ValidSpec (specs k)) : h.Ok :=
  ⟨fun k => by rw [(hi k).cfg]; exact valid_cfgOf (hv k), fun k => ⟨_, (hi k).ok⟩⟩

/-- a log call delivers what it owes -/
theorem log_inv {E : Env} {specs : Nat → Yaml.Spec} {owed : Nat → List Msg} {h h' : Heap} (hi : HeapInv E specs owed h)
    (hv : ∀ k, ValidSpec (specs k)) {t : Snk} (hf : Full t) {F : Nat} (hF : 2 ≤ F) {name : Text} {level v : Level} {format : Text}
    {fmt : FmtResult} (hl : Sink.Logger.log F ⟨name, level, t⟩ v format fmt h = some h') :
    h'.ub = h.ub ∧ HeapInv E specs (fun k => owed k ++
      if Admits level v then List.replicate (deliveries t (fun i => ownLevel (specs i)) v k) ⟨name, v, format, fmt⟩ else []) h' := by
  obtain ⟨n, rfl⟩ : ∃ n, F = n + 2 := ⟨F - 2, by omega⟩
  have hh := hi.ok hv
  rw [log_eq n ⟨name, level, t⟩ hf h hh v format fmt] at hl
  cases hl
  by_cases ha : Admits level v
  · simp only [if_pos ha]
    refine ⟨by rw [applyAll_ub, applyAll_ub], fun k => ?_⟩
    have hk := hi k
    have hg1 := pushCalls_good ⟨name, v, format, fmt⟩ (route t v)
    have hg2 := flushCalls_good t
    have hvk := hh.valid k
    have a1 := onLeaf_good _ hg1 k hvk hk.ok
    have a2 := onLeaf_good _ hg2 k (by rw [a1.2.cfg]; exact hvk) a1.1
    rw [applyAll_leaf, applyAll_leaf]
    refine ⟨by rw [a2.2.cfg, a1.2.cfg, hk.cfg], by rw [a2.2.w, a1.2.w, hk.w], a2.1, ?_, ?_⟩
    · have h1 := onLeaf_push_queue ⟨name, v, format, fmt⟩ (route t v) k (h.leaf k)
      have h2 := onLeaf_flush_queue t k (onLeaf (pushCalls ⟨name, v, format, fmt⟩ (route t v)) k (h.leaf k))
      have h3 := route_count_le t v k
      rw [hk.queue, List.length_nil] at h1
      exact List.eq_nil_of_length_eq_zero (by omega)
    · rw [onLeaf_other _ (flushCalls_accepted t), onLeaf_push, hk.accepted, hk.cfg, hk.w, eventsOf_length, eventsOf_append, Nat.zero_add,
        deliveries_eq, ownLevel_eq]
  · simp only [if_neg ha, List.append_nil]
    exact ⟨trivial, hi⟩

/-- calls that accept nothing and leave empty queues empty -/
theorem other_inv {E : Env} {specs : Nat → Yaml.Spec} {owed : Nat → List Msg} {h : Heap} (hi : HeapInv E specs owed h)
    (hv : ∀ k, ValidSpec (specs k)) {cs : List (Nat × (Leaf → Leaf))} (hg : ∀ c ∈ cs, Good c.2)
    (ha : ∀ c ∈ cs, ∀ l, (c.2 l).accepted = l.accepted) (hq : ∀ c ∈ cs, ∀ l : Leaf, l.queue = [] → (c.2 l).queue = []) :
    (applyAll cs h).ub = h.ub ∧ HeapInv E specs owed (applyAll cs h) := by
  refine ⟨applyAll_ub cs h, fun k => ?_⟩
  have hk := hi k
  have a1 := onLeaf_good cs hg k ((hi.ok hv).valid k) hk.ok
  rw [applyAll_leaf]
  refine ⟨by rw [a1.2.cfg, hk.cfg], by rw [a1.2.w, hk.w], a1.1, ?_, by rw [onLeaf_other _ ha, hk.accepted]⟩
  have : ∀ (cs : List (Nat × (Leaf → Leaf))) (l : Leaf), (∀ c ∈ cs, ∀ l : Leaf, l.queue = [] → (c.2 l).queue = []) → l.queue = [] →
      (onLeaf cs k l).queue = [] := by
    intro cs
    induction cs with
    | nil => intro l _ h; exact h
    | cons c cs ih =>
      intro l hc hl
      refine ih _ (fun c hc' => hc c (List.mem_cons_of_mem _ hc')) ?_
      show (if c.1 = k then c.2 l else l).queue = []
      split
      · exact hc c List.mem_cons_self l hl
      · exact hl
  exact this cs _ hq hk.queue

theorem flush_empty (l : Leaf) (h : l.queue = []) : l.flush.queue = [] := by
  have := flush_queue_sub l
  rw [h, List.length_nil] at this
  exact List.eq_nil_of_length_eq_zero (by omega)

theorem async_empty (l : Leaf) (h : l.queue = []) : l.asyncFlush.queue = [] := by
  have := asyncFlush_queue_le l
  rw [h, List.length_nil] at this
  exact List.eq_nil_of_length_eq_zero (by omega)

theorem rotate_empty (l : Leaf) (h : l.queue = []) : l.rotate.queue = [] := by
  unfold Leaf.rotate
  split
  · exact h
  · exact h
  · exact async_empty _ h
  · exact flush_empty _ h

theorem asyncCalls_empty (ss : List Snk) : ∀ c ∈ asyncCalls ss, ∀ l : Leaf, l.queue = [] → (c.2 l).queue = [] := by
  induction ss with
  | nil => intro c hc; cases hc
  | cons s ss ih =>
    cases s with
    | leaf i =>
      intro c hc
      rcases List.mem_cons.1 hc with rfl | hc
      · exact async_empty
      · exact ih c hc
    | multi lv subs => exact ih

mutual
theorem flushCalls_empty : (s : Snk) → ∀ c ∈ flushCalls s, ∀ l : Leaf, l.queue = [] → (c.2 l).queue = []
  | .leaf i => by
    intro c hc
    rw [flushCalls] at hc
    rw [List.mem_singleton.1 hc]; exact flush_empty
  | .multi lv subs => by
    intro c hc
    rw [flushCalls] at hc
    rcases List.mem_append.1 hc with hc | hc
    · exact asyncCalls_empty subs c hc
    · exact flushCallsAll_empty subs c hc
theorem flushCallsAll_empty : (ss : List Snk) → ∀ c ∈ flushCallsAll ss, ∀ l : Leaf, l.queue = [] → (c.2 l).queue = []
  | [] => by intro c hc; rw [flushCallsAll] at hc; cases hc
  | s :: ss => by
    intro c hc
    rw [flushCallsAll] at hc
    rcases List.mem_append.1 hc with hc | hc
    · exact flushCalls_empty s c hc
    · exact flushCallsAll_empty ss c hc
end

theorem flush_inv {E : Env} {specs : Nat → Yaml.Spec} {owed : Nat → List Msg} {h : Heap} (hi : HeapInv E specs owed h)
    (hv : ∀ k, ValidSpec (specs k)) (t : Snk) : (t.flush h).ub = h.ub ∧ HeapInv E specs owed (t.flush h) := by
  rw [flush_eq]
  exact other_inv hi hv (flushCalls_good t) (flushCalls_accepted t) (flushCalls_empty t)

theorem rotate_inv {E : Env} {specs : Nat → Yaml.Spec} {owed : Nat → List Msg} {h : Heap} (hi : HeapInv E specs owed h)
    (hv : ∀ k, ValidSpec (specs k)) (t : Snk) : (t.rotate h).ub = h.ub ∧ HeapInv E specs owed (t.rotate h) := by
  rw [rotate_eq]
  have hm : ∀ c ∈ (leaves t).map (fun i => (i, Leaf.rotate)), c.2 = Leaf.rotate := by
    intro c hc; obtain ⟨i, _, rfl⟩ := List.mem_map.1 hc; rfl
  exact other_inv hi hv (fun c hc => by rw [hm c hc]; exact good_rotate) (fun c hc => by rw [hm c hc]; exact rotate_accepted)
    (fun c hc => by rw [hm c hc]; exact rotate_empty)

/-! ### construction -/

theorem construct_inv {E : Env} {st st' : Yaml.St} {owed : Nat → List Msg} {h : Heap} (hi : HeapInv E st.specs owed h)
    (hs : ∀ k, k < st.sys.nsinks → st'.specs k = st.specs k) (hb : ∀ k, st.sys.nsinks ≤ k → st.specs k = .nowhere)
    (hb' : ∀ k, st'.sys.nsinks ≤ k → st'.specs k = .nowhere) (hn : st.sys.nsinks ≤ st'.sys.nsinks)
    (ho : ∀ k, (st.specs k).cfg = none → owed k = []) :
    (construct E st.sys.nsinks st' h).ub = h.ub ∧ HeapInv E st'.specs owed (construct E st.sys.nsinks st' h) := by
  refine ⟨rfl, fun k => ?_⟩
  show LeafInv E k (st'.specs k) (owed k) (if st.sys.nsinks ≤ k ∧ k < st'.sys.nsinks then leafFor E k (st'.specs k) else h.leaf k)
  split
  · rename_i hk
    rw [ho k (by rw [hb k hk.1]; rfl)]
    exact leafInv_new E k _
  · rename_i hk
    by_cases h1 : k < st.sys.nsinks
    · rw [hs k h1]; exact hi k
    · rw [hb' k (by omega), ← hb k (by omega)]; exact hi k

/-! ### the invariant -/

structure Inv (E : Env) (sysOk : System.Sys → System.Op → Prop) (s : State) (owed : Nat → List Msg) : Prop where
  reach : System.ReachBy sysOk s.st.sys
  sinks : Yaml.SinksOk s.st
  valid : ∀ k, ValidSpec (s.st.specs k)
  none : ∀ k, (s.st.specs k).cfg = none → owed k = []
  ub : NoEmpty s → s.heap.ub = false
  leaf : NoEmpty s → HeapInv E s.st.specs owed s.heap

theorem deliveries_none {specs : Nat → Yaml.Spec} {t : Snk} {v : Level} {k : Nat} (h : (specs k).cfg = none) :
    deliveries t (fun i => ownLevel (specs i)) v k = 0 := by
  rw [deliveries_eq, if_neg]
  unfold ownLevel
  rw [h]
  exact not_admits_off v

theorem owes_none (s : State) (c : Call) (s' : State) (k : Nat) (h : (s.st.specs k).cfg = none) : owes s c s' k = [] := by
  have key : ∀ j m, owedThrough s.st.specs j m k = [] := fun j m => by
    unfold owedThrough
    rw [deliveries_none h]; rfl
  cases c with
  | log i v format fmt =>
    unfold owes
    simp only
    split
    · split
      · exact key _ _
      · rfl
    · rfl
  | system op =>
    unfold owes
    simp only [key]
    induction (s'.st.sys.warned.drop s.st.sys.warned.length) with
    | nil => rfl
    | cons w ws ih => exact ih
  | _ => rfl

theorem noEmpty_back {s s' : State} (hs : ∀ k, k < s.st.sys.nsinks → s'.st.specs k = s.st.specs k)
    (hb : ∀ k, s.st.sys.nsinks ≤ k → s.st.specs k = .nowhere) (h : NoEmpty s') : NoEmpty s := by
  intro k lv he
  by_cases hk : k < s.st.sys.nsinks
  · exact h k lv (by rw [hs k hk]; exact he)
  · rw [hb k (by omega)] at he; cases he

theorem trans_nsinks {s y : System.Sys} (ht : System.Trans .all s y) : s.nsinks ≤ y.nsinks := by
  cases ht with
  | sink => exact Nat.le_succ _
  | level => rename_i h; rw [h.rest]; exact Nat.le_refl _
  | sinkOf => rename_i h; rw [h.rest]; exact Nat.le_refl _
  | parentOf => rename_i h; rw [h.rest]; exact Nat.le_refl _
  | _ => exact Nat.le_refl _

/-- the warnings of a call are delivered -/
theorem warnAll_inv {E : Env} {specs : Nat → Yaml.Spec} (hv : ∀ k, ValidSpec (specs k)) (hf : ∀ k, Full (tree specs k)) {F : Nat} (hF : 2 ≤ F) :
    ∀ (ws : List System.Warning) {owed : Nat → List Msg} {h h' : Heap}, HeapInv E specs owed h → warnAll specs F ws h = some h' →
      h'.ub = h.ub ∧ HeapInv E specs (fun k => owed k ++ ws.flatMap fun w =>
        owedThrough specs (warningOf w).1 (warningOf w).2 k) h' := by
  have hof : ∀ w, warningOf w = (warningSink w, ⟨"Soralog".toList, .warn, warningFormat w, .ok (warningText w)⟩) := by
    intro w; cases w <;> rfl
  simp only [hof]
  intro ws
  induction ws with
  | nil =>
    intro owed h h' hi he
    cases he
    exact ⟨rfl, by simpa using hi⟩
  | cons w ws ih =>
    intro owed h h' hi he
    rw [warnAll] at he
    cases hl : Sink.Logger.log F ⟨"Soralog".toList, .warn, tree specs (warningSink w)⟩ .warn (warningFormat w) (.ok (warningText w)) h with
    | none => rw [hl] at he; cases he
    | some h1 =>
      rw [hl] at he
      obtain ⟨a1, a2⟩ := log_inv hi hv (hf (warningSink w)) hF hl
      obtain ⟨b1, b2⟩ := ih a2 he
      refine ⟨b1.trans a1, ?_⟩
      simp only [if_pos (show Admits Level.warn Level.warn by decide)] at b2
      simp only [List.flatMap_cons, ← List.append_assoc]
      exact b2

/-- the calls of the system that a call of the program makes by itself are allowed -/
structure SysOk (sysOk : System.Sys → System.Op → Prop) (ok : State → Call → Prop) : Prop where
  yaml : ∀ s op, Yaml.yamlOp s op → sysOk s op
  fallback : ∀ s level, sysOk s (.makeGroup System.star none (some "console".toList) (some level))
  sink : ∀ s n, sysOk s (.makeSink n)
  op : ∀ s o, ok s (.system o) → sysOk s.st.sys o

variable {E : Env} {sysOk : System.Sys → System.Op → Prop} {ok : State → Call → Prop}

theorem inv_new (debug : Bool) (ord : List Nat → List Nat) (ho : ∀ l, (ord l).Perm l) (b : Bool) :
    Inv E sysOk (new E debug ord b) fun _ => [] := by
  refine ⟨.init debug ord ho, ⟨?_, fun _ _ => rfl, fun k lv subs h => (by cases h)⟩, fun k c h => (by cases h), fun _ _ => rfl, fun _ => rfl,
    fun _ k => leafInv_new E k .nowhere⟩
  exact fun n k h => ((System.new_wf debug ord ho).kLt n k h).1

/-- after a call that only adds sinks -/
theorem inv_grown {s : State} {owed : Nat → List Msg} (h : Inv E sysOk s owed) {y : Yaml.St} (hr : System.ReachBy sysOk y.sys)
    (hg : Yaml.SinksGrow s.st y) (hu : ∀ k, s.st.sys.nsinks ≤ k → k < y.sys.nsinks → ValidSpec (y.specs k)) :
    Inv E sysOk ⟨y, construct E s.st.sys.nsinks y s.heap⟩ owed := by
  obtain ⟨g1, g2, g3⟩ := hg h.sinks
  have hback : NoEmpty ⟨y, construct E s.st.sys.nsinks y s.heap⟩ → NoEmpty s := noEmpty_back (s' := ⟨y, _⟩) g3 h.sinks.beyond
  refine ⟨hr, g1, fun k => ?_, fun k hk => ?_, fun hn => ?_, fun hn => ?_⟩
  · by_cases h1 : k < s.st.sys.nsinks
    · show ValidSpec (y.specs k); rw [g3 k h1]; exact h.valid k
    · by_cases h2 : k < y.sys.nsinks
      · exact hu k (by omega) h2
      · show ValidSpec (y.specs k)
        rw [g1.beyond k (by omega)]; intro c hc; cases hc
  · by_cases h1 : k < s.st.sys.nsinks
    · have : (y.specs k).cfg = .none := hk
      rw [g3 k h1] at this
      exact h.none k this
    · exact h.none k (by rw [h.sinks.beyond k (by omega)]; rfl)
  · exact h.ub (hback hn)
  · exact (construct_inv (h.leaf (hback hn)) g3 h.sinks.beyond g1.beyond g2 h.none).2

theorem usable_valid {c : Cfg} (h : Yaml.UsableCfg c) : 1 ≤ c.capacity ∧ c.kind ≠ .nowhere := ⟨by have := h.1.1; omega, h.2⟩

theorem reach_configure (hs : SysOk sysOk ok) {s y : Yaml.St} {F : Nat} {what : Text} {c : Yaml.Configurator} {r : Yaml.Result}
    (hr : System.ReachBy sysOk s.sys) (h : Yaml.configure E.W F what c s = .ok r y) : System.ReachBy sysOk y.sys :=
  Yaml.configure_tri (Yaml.keepsAny_applyOn hs.yaml hs.fallback hs.sink E.W F c) h (.configuring hr)

theorem configure_throw {W : Yaml.World} {F : Nat} {what : Text} {c : Yaml.Configurator} {s y : Yaml.St}
    (h : Yaml.configure W F what c s = .throw y) : y = s := by
  unfold Yaml.configure at h
  split at h
  · cases h; rfl
  · revert h
    repeat' split
    all_goals intro h; cases h

theorem construct_self (E : Env) (st : Yaml.St) (h : Heap) : construct E st.sys.nsinks st h = h := by
  unfold construct
  have : (fun k => if st.sys.nsinks ≤ k ∧ k < st.sys.nsinks then leafFor E k (st.specs k) else h.leaf k) = h.leaf := by
    funext k
    rw [if_neg (by omega)]
  rw [this]

theorem step_throw {F : Nat} {s y : System.Sys} {op : System.Op} (h : System.step F s op = .throw y) : y = s := by
  cases op with
  | getLogger n g k l => exact System.getLogger_throw (System.map_throw h)
  | makeGroup n p k l =>
    simp only [System.step, System.makeGroup] at h
    revert h
    repeat' split
    all_goals (intro h; cases h; try rfl)
  | onHandle i m => simp only [System.step] at h; split at h <;> cases h
  | drop i => cases h
  | makeSink n => cases h
  | _ =>
    have h := System.map_throw h
    revert h
    simp only [System.setFallbackGroup, System.setParentOfGroup, System.unsetParentOfGroup, System.setSinkOfGroup,
      System.resetSinkOfGroup, System.setLevelOfGroup, System.resetLevelOfGroup, System.setGroupOfLogger, System.setSinkOfLogger,
      System.resetSinkOfLogger, System.setLevelOfLogger, System.resetLevelOfLogger, System.onLogger]
    repeat' split
    all_goals (intro h; first | exact (System.ofOption_throw h).elim | cases h)

theorem inv_step (hs : SysOk sysOk ok) {s s' : State} {owed : Nat → List Msg} {c : Call} {F : Nat} (h : Inv E sysOk s owed)
    (hp : Proper s c) (hok : ok s c) (hF : 2 ≤ F) (hc : step E F s c = .ok s' ∨ step E F s c = .throw s') :
    Inv E sysOk s' fun k => owed k ++ owes s c s' k := by
  have hsame : ∀ {s' : State}, (∀ k, owes s c s' k = []) → Inv E sysOk s' owed → Inv E sysOk s' fun k => owed k ++ owes s c s' k := by
    intro s' h0 hi
    simp only [h0, List.append_nil]
    exact hi
  cases c with
  | configure what cf =>
    refine hsame (fun k => rfl) ?_
    simp only [step] at hc
    cases he : Yaml.configure E.W F what cf s.st with
    | ub => rw [he] at hc; rcases hc with hc | hc <;> cases hc
    | diverge => rw [he] at hc; rcases hc with hc | hc <;> cases hc
    | throw y =>
      rw [he] at hc
      have := configure_throw he
      subst this
      rcases hc with hc | hc <;> cases hc
      rw [construct_self]
      exact h
    | ok r y =>
      rw [he] at hc
      rcases hc with hc | hc <;> cases hc
      refine inv_grown h (reach_configure hs h.reach he) (Yaml.sinksGrow_configure he) fun k h1 h2 q hq => ?_
      exact usable_valid ((Yaml.configure_tri (Yaml.newUsable_applyOn E.W F cf) he).2.2 k h1 h2 q hq)
  | makeSink name spec =>
    refine hsame (fun k => rfl) ?_
    simp only [step] at hc
    rcases Yaml.createSink_cases E.W name spec s.st with he | ⟨_, b, he⟩
    · rw [he] at hc
      rcases hc with hc | hc <;> cases hc
      rw [construct_self]
      exact h
    · rw [he] at hc
      rcases hc with hc | hc <;> cases hc
      refine inv_grown h ?_ (Yaml.sinksGrow_created fun lv subs hm => hp.2 lv subs hm) fun k h1 h2 q hq => ?_
      · exact .call (fuel := 0) (op := .makeSink name) h.reach (hs.sink _ _) rfl
      · have : k = s.st.sys.nsinks := Nat.le_antisymm (Nat.lt_succ_iff.1 h2) h1
        subst this
        simp only [System.upd_same] at hq
        exact hp.1 q hq
  | system op =>
    simp only [step] at hc
    have hgrow : ∀ {y : System.Sys} {v : System.Val}, System.step F s.st.sys op = .ret v y ∨ System.step F s.st.sys op = .throw y →
        System.ReachBy sysOk y ∧ Yaml.SinksGrow s.st { s.st with sys := y } ∧
        ∀ k, s.st.sys.nsinks ≤ k → k < y.nsinks → ValidSpec (s.st.specs k) := by
      intro y v hst
      have hry : System.ReachBy sysOk y := hst.elim (fun e => .call h.reach (hs.op s op hok) e) fun e => .failed h.reach (hs.op s op hok) e
      have hn := trans_nsinks (System.step_all h.reach.wf hst)
      refine ⟨hry, fun h0 => ⟨⟨fun n k hf => (hry.wf.kLt n k hf).1, fun k hk => ?_, h0.good⟩, hn, fun _ _ => rfl⟩, fun k _ _ => h.valid k⟩
      have hk : y.nsinks ≤ k := hk
      exact h0.beyond k (by omega)
    cases he : System.step F s.st.sys op with
    | ub => rw [he] at hc; rcases hc with hc | hc <;> cases hc
    | diverge => rw [he] at hc; rcases hc with hc | hc <;> cases hc
    | throw y =>
      rw [he] at hc
      rcases hc with hc | hc <;> cases hc
      have hy := step_throw he
      subst hy
      refine hsame (fun k => ?_) (by rw [construct_self]; exact h)
      unfold owes
      simp only [List.drop_length, List.flatMap_nil]
    | ret v y =>
      rw [he] at hc
      obtain ⟨g1, g2, g3⟩ := hgrow (.inl he)
      have hi := inv_grown h (y := { s.st with sys := y }) g1 g2 g3
      cases hw : warnAll s.st.specs F (y.warned.drop s.st.sys.warned.length) (construct E s.st.sys.nsinks { s.st with sys := y } s.heap) with
      | none => simp only [hw] at hc; rcases hc with hc | hc <;> cases hc
      | some hp' =>
        simp only [hw] at hc
        rcases hc with hc | hc <;> cases hc
        have hkey : NoEmpty s → hp'.ub = (construct E s.st.sys.nsinks { s.st with sys := y } s.heap).ub ∧ _ := fun hn =>
          warnAll_inv h.valid (tree_full h.sinks.good hn) hF _ (hi.leaf hn) hw
        refine ⟨hi.reach, hi.sinks, hi.valid, fun k hk => ?_, fun hn => ?_, fun hn => ?_⟩
        · rw [hi.none k hk, owes_none s _ _ k hk]; rfl
        · exact (hkey hn).1.trans (hi.ub hn)
        · exact (hkey hn).2
  | log i v format fmt =>
    simp only [step] at hc
    by_cases hl : i < s.st.sys.nloggers ∧ s.st.sys.alive i
    · rw [if_pos hl] at hc
      unfold logCall at hc
      simp only at hc
      cases hk : (s.st.sys.lgr i).sink with
      | none =>
        rw [hk] at hc
        simp only at hc
        split at hc
        · rcases hc with hc | hc <;> cases hc
        · rename_i hna
          rcases hc with hc | hc <;> cases hc
          refine hsame (fun k => ?_) h
          unfold owes
          simp only
          rw [if_neg]
          rintro ⟨_, _, ha⟩
          exact hna ⟨ha.2, ha.1.1, ha.1.2⟩
      | some j =>
        rw [hk] at hc
        simp only at hc
        cases hlog : Sink.Logger.log F ⟨(s.st.sys.lgr i).name, (s.st.sys.lgr i).level, tree s.st.specs j⟩ v format fmt s.heap with
        | none => rw [hlog] at hc; rcases hc with hc | hc <;> cases hc
        | some h2 =>
          rw [hlog] at hc
          rcases hc with hc | hc <;> cases hc
          have hkey := fun hn => log_inv (h.leaf hn) h.valid (tree_full h.sinks.good hn j) hF hlog
          have howes : ∀ k, owes s (.log i v format fmt) { s with heap := h2 } k = if Admits (s.st.sys.lgr i).level v then
              List.replicate (deliveries (tree s.st.specs j) (fun i => ownLevel (s.st.specs i)) v k)
                ⟨(s.st.sys.lgr i).name, v, format, fmt⟩ else [] := by
            intro k
            unfold owes
            simp only
            by_cases ha : Admits (s.st.sys.lgr i).level v
            · rw [if_pos ⟨hl.1, hl.2, ha⟩, if_pos ha, hk]; rfl
            · rw [if_neg (fun x => ha x.2.2), if_neg ha]
          refine ⟨h.reach, h.sinks, h.valid, fun k hk => ?_, fun hn => ?_, fun hn => ?_⟩
          · rw [h.none k hk, owes_none s _ _ k hk]; rfl
          · exact (hkey hn).1.trans (h.ub hn)
          · simp only [howes]; exact (hkey hn).2
    · rw [if_neg hl] at hc
      rcases hc with hc | hc <;> cases hc
      refine hsame (fun k => ?_) h
      unfold owes
      simp only
      rw [if_neg fun x => hl ⟨x.1, x.2.1⟩]
  | flush k =>
    refine hsame (fun k => rfl) ?_
    simp only [step] at hc
    split at hc
    · rcases hc with hc | hc <;> cases hc
      exact ⟨h.reach, h.sinks, h.valid, h.none, fun hn => (flush_inv (h.leaf hn) h.valid _).1.trans (h.ub hn),
        fun hn => (flush_inv (h.leaf hn) h.valid _).2⟩
    · rcases hc with hc | hc <;> cases hc
      exact h
  | rotate k =>
    refine hsame (fun k => rfl) ?_
    simp only [step] at hc
    split at hc
    · rcases hc with hc | hc <;> cases hc
      exact ⟨h.reach, h.sinks, h.valid, h.none, fun hn => (rotate_inv (h.leaf hn) h.valid _).1.trans (h.ub hn),
        fun hn => (rotate_inv (h.leaf hn) h.valid _).2⟩
    · rcases hc with hc | hc <;> cases hc
      exact h

theorem history_inv (hs : SysOk sysOk ok) {s : State} {owed : Nat → List Msg} (h : History E ok s owed) : Inv E sysOk s owed := by
  induction h with
  | new debug ord ho b => exact inv_new debug ord ho b
  | call _ hp hok hF hc ih => exact inv_step hs ih hp hok hF hc

/-! ### no undefined behaviour inside a sink -/

structure Clean (l : Leaf) : Prop where
  ub : l.ub = false
  cap : l.queue.length ≤ l.cfg.capacity
  made : ∀ e ∈ l.queue, ∃ n m, e = mkEvent (l.w.env n) l.cfg.ti l.cfg.maxLen m

theorem record_fits {l : Leaf} (hk : Stream l.cfg.kind) (hr : Roomy l.cfg) (he : SaneEnv l.w) (n : Nat) (m : Msg) :
    (l.record (mkEvent (l.w.env n) l.cfg.ti l.cfg.maxLen m)).overflow = false := by
  have hb : ∀ {b ml : Nat}, 2 * ml ≤ b → Render.bufferSize b ml = b := by
    intro b ml h
    unfold Render.bufferSize
    split
    · omega
    · rfl
  unfold Leaf.record Leaf.staging
  unfold Roomy at hr
  cases hkind : l.cfg.kind with
  | console color bf =>
    rw [hkind] at hr
    have := Render.C09_records_fit l.w.lt l.cfg.maxBuffer l.cfg.maxLen (.inl hr.1) l.cfg.ti color bf (l.w.env n) m (he n).1 (he n).2
    rw [hb hr.2] at this
    exact this.1.1
  | file =>
    rw [hkind] at hr
    have := Render.C09_records_fit l.w.lt l.cfg.maxBuffer l.cfg.maxLen (.inl hr.1) l.cfg.ti false false (l.w.env n) m (he n).1 (he n).2
    rw [hb hr.2] at this
    exact this.2.1
  | syslog => rw [hkind] at hk; exact hk.elim
  | nowhere => rw [hkind] at hk; exact hk.elim

theorem clean_flushStream {l : Leaf} (hk : Stream l.cfg.kind) (hr : Roomy l.cfg) (he : SaneEnv l.w) (h : Clean l) : Clean l.flushStream := by
  have hs := (flushStream_same l).1
  refine ⟨?_, ?_, ?_⟩
  · unfold Leaf.flushStream
    cases hq : l.queue with
    | nil => exact h.ub
    | cons e q =>
      have : (l.record e).overflow = false := by
        obtain ⟨n, m, rfl⟩ := h.made e (by rw [hq]; exact List.mem_cons_self)
        exact record_fits hk hr he n m
      simp only
      unfold Leaf.clearNeedFlush Leaf.write
      simp only
      split <;> (simp only [h.ub, this]; rfl)
  · rw [flushStream_queue, hs.cfg]
    have := h.cap
    rw [List.length_tail]
    omega
  · intro e hm
    rw [flushStream_queue] at hm
    rw [hs.cfg, hs.w]
    exact h.made e (List.mem_of_mem_tail hm)

theorem clean_flush {l : Leaf} (hr : Roomy l.cfg) (he : SaneEnv l.w) (h : Clean l) : Clean l.flush := by
  have hs := flush_same l
  by_cases hk : Stream l.cfg.kind
  · have h1 := clean_flushStream hk hr he h
    unfold Leaf.flush
    cases hkind : l.cfg.kind with
    | console c b => exact h1
    | file =>
      have hf := maybeRotate_fields l.flushStream
      have hm := maybeRotate_same l.flushStream
      refine ⟨hf.2.2.2.2.trans h1.ub, ?_, ?_⟩
      · show l.flushStream.maybeRotate.queue.length ≤ l.flushStream.maybeRotate.cfg.capacity
        rw [hf.1, hm.cfg]; exact h1.cap
      · intro e hme
        have hme : e ∈ l.flushStream.maybeRotate.queue := hme
        show ∃ n m, e = mkEvent (l.flushStream.maybeRotate.w.env n) l.flushStream.maybeRotate.cfg.ti l.flushStream.maybeRotate.cfg.maxLen m
        rw [hf.1] at hme
        rw [hm.cfg, hm.w]; exact h1.made e hme
    | syslog => rw [hkind] at hk; exact hk.elim
    | nowhere => rw [hkind] at hk; exact hk.elim
  · have hq : l.flush.queue = [] := by rw [flush_queue, if_neg hk]
    refine ⟨?_, by rw [hq]; exact Nat.zero_le _, by rw [hq]; intro e he; cases he⟩
    cases hkind : l.cfg.kind with
    | console c b => rw [hkind] at hk; exact absurd trivial hk
    | file => rw [hkind] at hk; exact absurd trivial hk
    | syslog =>
      have hall : ∀ e ∈ l.queue, Render.WF l.cfg.maxLen e := by
        intro e hm
        obtain ⟨n, m, rfl⟩ := h.made e hm
        exact Render.mkEvent_wf _ _ _ _ (he n).1 (he n).2
      rw [flush_ub l hkind hall, h.ub, Bool.false_or, decide_eq_false_iff_not]
      have h2 := sum_le (bytesOf l.w.lt l.cfg.ti) (95 + l.cfg.maxLen) l.queue (by
        intro e hm
        have := Render.compact_length_le (Render.stamp l.w.lt (Spec.second e.timestamp)) l.cfg.ti e (hall e hm) (Render.stamp_length _ _)
        unfold bytesOf; rw [Render.ownText_eq]
        omega)
      have h3 : l.queue.length * (95 + l.cfg.maxLen) ≤ l.cfg.capacity * (95 + l.cfg.maxLen) := Nat.mul_le_mul_right _ h.cap
      unfold Roomy at hr
      rw [hkind] at hr
      have hr : l.cfg.capacity * (95 + l.cfg.maxLen) ≤ l.cfg.maxBuffer := hr
      omega
    | nowhere =>
      unfold Leaf.flush
      rw [hkind]
      have : ∀ (es : List Event) (l : Leaf), l.ub = false → (Leaf.discard es l).ub = false := by
        intro es
        induction es with
        | nil => intro l h; exact h
        | cons e es ih => intro l h; exact ih _ h
      exact this _ _ h.ub

/-- the calls on a sink -/
def Cleans (f : Leaf → Leaf) : Prop := ∀ l : Leaf, 1 ≤ l.cfg.capacity → Roomy l.cfg → SaneEnv l.w → Clean l → Clean (f l) ∧ (f l).cfg = l.cfg ∧ (f l).w = l.w

theorem cleans_flush : Cleans Leaf.flush := fun l _ hr he h => ⟨clean_flush hr he h, (flush_same l).cfg, (flush_same l).w⟩

theorem cleans_async : Cleans Leaf.asyncFlush := by
  intro l hc hr he h
  refine ⟨?_, (asyncFlush_same l).cfg, (asyncFlush_same l).w⟩
  unfold Leaf.asyncFlush
  split
  · exact clean_flush hr he h
  · split
    · exact ⟨h.ub, h.cap, h.made⟩
    · exact clean_flush hr he h

theorem cleans_rotate : Cleans Leaf.rotate := by
  intro l hc hr he h
  refine ⟨?_, (rotate_same l).cfg, (rotate_same l).w⟩
  unfold Leaf.rotate
  split
  · exact h
  · exact h
  · exact (cleans_async { l with needRotate := true } hc hr he ⟨h.ub, h.cap, h.made⟩).1
  · exact clean_flush hr he h

theorem cleans_push (m : Msg) : Cleans (pushLeaf m) := by
  intro l hc hr he h
  refine ⟨?_, (pushLeaf_same m l).cfg, (pushLeaf_same m l).w⟩
  unfold pushLeaf
  split
  · unfold Leaf.pushed
    have key : ∀ l : Leaf, 1 ≤ l.cfg.capacity → Roomy l.cfg → SaneEnv l.w → Clean l → l.queue.length < l.cfg.capacity →
        Clean ((l.store m).afterStore) := by
      intro l hc hr he h hlt
      have hst : Clean (l.store m) := by
        refine ⟨h.ub, ?_, ?_⟩
        · show (l.queue ++ [_]).length ≤ l.cfg.capacity
          rw [List.length_append]; exact hlt
        · intro e hm
          rcases List.mem_append.1 hm with hm | hm
          · exact h.made e hm
          · rw [List.mem_singleton.1 hm]; exact ⟨_, m, rfl⟩
      unfold Leaf.afterStore
      split
      · exact clean_flush hr he hst
      · split
        · exact (cleans_async (l.store m) hc hr he hst).1
        · exact hst
    split
    · rename_i hlt; exact key l hc hr he h hlt
    · have hs := flush_same l
      have := flush_queue_sub l
      have hcap := h.cap
      exact key l.flush (by rw [hs.cfg]; exact hc) (by rw [hs.cfg]; exact hr) (by rw [hs.w]; exact he) (clean_flush hr he h)
        (by rw [hs.cfg]; omega)
  · exact h

theorem onLeaf_cleans (cs : List (Nat × (Leaf → Leaf))) (hg : ∀ c ∈ cs, Cleans c.2) (i : Nat) {l : Leaf} (hc : 1 ≤ l.cfg.capacity)
    (hr : Roomy l.cfg) (he : SaneEnv l.w) (h : Clean l) :
    Clean (onLeaf cs i l) ∧ (onLeaf cs i l).cfg = l.cfg ∧ (onLeaf cs i l).w = l.w := by
  induction cs generalizing l with
  | nil => exact ⟨h, rfl, rfl⟩
  | cons c cs ih =>
    have key : Clean (if c.1 = i then c.2 l else l) ∧ (if c.1 = i then c.2 l else l).cfg = l.cfg ∧ (if c.1 = i then c.2 l else l).w = l.w := by
      split
      · exact hg c (List.mem_cons_self ..) l hc hr he h
      · exact ⟨h, rfl, rfl⟩
    have := ih (fun c hc => hg c (List.mem_cons_of_mem _ hc)) (by rw [key.2.1]; exact hc) (by rw [key.2.1]; exact hr)
      (by rw [key.2.2]; exact he) key.1
    exact ⟨this.1, this.2.1.trans key.2.1, this.2.2.trans key.2.2⟩

end Whole
end Soralog
