import Verif.Proofs.YamlEffect
/-!
# The effect of the groups of a document
-/
namespace Soralog
namespace Yaml

open Soralog.System

/-! ### the sinks stay -/

def SameSinks (s s' : St) : Prop := s'.sys.sinks = s.sys.sinks

instance : Pre SameSinks where
  refl _ := rfl
  trans h1 h2 := Eq.trans h2 h1

instance : Reads SameSinks where
  error _ _ _ := fun _ => ⟨rfl, trivial⟩
  warning _ _ _ := fun _ => ⟨rfl, trivial⟩

instance (W : World) (F : Nat) : Groups W F SameSinks where
  noName _ := fun _ => ⟨rfl, trivial⟩
  apply h1 h2 h3 := tri_applyGroup (fun _ _ _ _ ho h => (step_sinks ho.1 ho.2 h).2.1) h1 h2 h3

/-! ### nodes without effect -/

theorem sim_list {W : World} {one one' : Nat → List (Nat × Nat) → M Unit} (h : ∀ i j e, Sim (one i e) (one' j e)) (items : List Nat)
    (i j : Nat) : Sim (parseGroupList W one i items) (parseGroupList W one' j items) := by
  induction items generalizing i j with
  | nil => exact (Reading.pure ()).sim (Reading.pure ())
  | cons n ns ih =>
    unfold parseGroupList
    refine Sim.bind ?_ fun _ => ih _ _
    unfold parseGroupItem
    cases W.node n with
    | map e => exact h _ _ _
    | _ => exact (Reading.error _).sim (Reading.error _)

/-- what is done with a group node that has been read -/
def afterRead (W : World) (F f : Nat) (parent : Option Text) (o : Option GroupNode) : M Unit :=
  match o with
  | none => pure ()
  | some g =>
    if g.name = star then error .groupReserved
    else do
      applyGroup F g parent
      match g.children with
      | some items => parseGroupList W (parseGroup W F f (some g.name)) 0 items
      | none => pure ()

theorem parseGroup_succ (W : World) (F f : Nat) (parent : Option Text) (i : Nat) (entries : List (Nat × Nat)) :
    parseGroup W F (f + 1) parent i entries = (readGroup W i entries parent >>= afterRead W F f parent) := rfl

/-- the number of an element matters for the messages only -/
theorem parseGroup_sim (W : World) (F f : Nat) (parent : Option Text) (i j : Nat) (e : List (Nat × Nat)) :
    Sim (parseGroup W F f parent i e) (parseGroup W F f parent j e) := by
  induction f generalizing parent i j e with
  | zero => unfold parseGroup; intro s t _; trivial
  | succ f ih =>
    rw [parseGroup_succ, parseGroup_succ]
    refine Sim.bind ((read_readGroup W i e parent).sim (read_readGroup W j e parent)) fun o => ?_
    unfold afterRead
    cases o with
    | none => exact (Reading.pure ()).sim (Reading.pure ())
    | some g =>
      simp only
      split
      · exact (Reading.error _).sim (Reading.error _)
      · refine Sim.bind (applyGroup_sim F g parent) fun _ => ?_
        cases g.children with
        | none => exact (Reading.pure ()).sim (Reading.pure ())
        | some items => exact sim_list (fun i j e => ih _ i j e) _ _ _

/-- The element `n` of a list of groups is not usable. -/
def GroupUseless (W : World) (parent : Option Text) (sinks : Table) (n : Nat) : Prop :=
  match W.node n with
  | .map entries => groupAt W entries parent sinks = some none ∨
      ∃ g, groupAt W entries parent sinks = some (some g) ∧ g.name = star
  | _ => True

theorem useless_group {W : World} {F f i n : Nat} {parent : Option Text} {s : St} (h : GroupUseless W parent s.sys.sinks n) :
    ∃ s', Quiet s s' ∧ parseGroupItem W (parseGroup W F (f + 1) parent) i n s = .ok () s' := by
  unfold GroupUseless at h
  unfold parseGroupItem
  cases hn : W.node n with
  | map e =>
    rw [hn] at h
    simp only [parseGroup_succ]
    obtain ⟨s1, h1, e1⟩ := read_readGroup W i e parent s
    rw [bind_def, e1]
    simp only
    rcases h with h | ⟨g, h, hg⟩
    · rw [h]; exact ⟨s1, h1, rfl⟩
    · rw [h]
      simp only [give, afterRead, if_pos hg]
      obtain ⟨s2, h2, e2⟩ := Reading.error .groupReserved s1
      exact ⟨s2, h1.trans h2, e2⟩
  | _ =>
    obtain ⟨s2, h2, e2⟩ := Reading.error (.groupNotMap i) s
    exact ⟨s2, h2, e2⟩

/-- leaving out unusable elements changes nothing but the problems reported -/
theorem groupList_filter (W : World) (F f : Nat) (parent : Option Text) (hpar : parent ≠ some star) (p : Nat → Bool)
    (items : List Nat) (i j : Nat) (s t : St)
    (h : ∀ n ∈ items, p n = false → GroupUseless W parent s.sys.sinks n) (hq : Quiet s t) :
    OutSim (parseGroupList W (parseGroup W F (f + 1) parent) i items s)
      (parseGroupList W (parseGroup W F (f + 1) parent) j (items.filter p) t) := by
  induction items generalizing i j s t with
  | nil => exact (Reading.pure ()).sim (Reading.pure ()) s t hq
  | cons n ns ih =>
    cases hp : p n with
    | true =>
      rw [List.filter_cons_of_pos hp]
      unfold parseGroupList
      rw [bind_def, bind_def]
      have hsim : Sim (parseGroupItem W (parseGroup W F (f + 1) parent) i n) (parseGroupItem W (parseGroup W F (f + 1) parent) j n) := by
        unfold parseGroupItem
        cases W.node n with
        | map e => exact parseGroup_sim W F _ parent i j e
        | _ => exact (Reading.error _).sim (Reading.error _)
      have htri : Tri SameSinks Any (parseGroupItem W (parseGroup W F (f + 1) parent) i n) := by
        unfold parseGroupItem
        cases W.node n with
        | map e => exact tri_parseGroup W F _ i e parent hpar
        | _ => exact Reads.error _ rfl rfl
      have h1 := hsim s t hq
      have h2 := htri s
      cases e1 : parseGroupItem W (parseGroup W F (f + 1) parent) i n s <;>
        cases e2 : parseGroupItem W (parseGroup W F (f + 1) parent) j n t <;> rw [e1, e2] at h1 <;> simp only [OutSim] at h1
      · rw [e1] at h2
        refine ih _ _ _ _ (fun m hm hpm => ?_) h1.2
        have h3 : GroupUseless W parent s.sys.sinks m := h m (List.mem_cons_of_mem _ hm) hpm
        have h4 := h2.1
        unfold SameSinks at h4
        rw [h4]
        exact h3
      · exact h1
      · trivial
      · trivial
    | false =>
      rw [List.filter_cons_of_neg (by simp [hp])]
      rw [parseGroupList]
      obtain ⟨s1, h1, e1⟩ := useless_group (F := F) (f := f) (i := i) (h n List.mem_cons_self hp)
      rw [bind_def, e1]
      refine ih (i + 1) j s1 t (fun m hm hpm => ?_) (h1.symm.trans hq)
      rw [h1.1]
      exact h m (List.mem_cons_of_mem _ hm) hpm

/-! ### documents in which every group has a name of its own -/

/-- The usable group nodes, each with the name of the group in which it is nested, in document order. -/
def declaredGroups (W : World) (sinks : Table) : Nat → Option Text → List Nat → List (Option Text × GroupNode)
  | 0, _, _ => []
  | f + 1, parent, items => items.flatMap fun n =>
    match W.node n with
    | .map e =>
      match groupAt W e parent sinks with
      | some (some g) =>
        if g.name = star then []
        else (parent, g) :: (match g.children with
          | some cs => declaredGroups W sinks f (some g.name) cs
          | none => [])
      | _ => []
    | _ => []

/-- the group `g` is as its node says -/
structure AsDeclared (y : Sys) (parent : Option Text) (n : GroupNode) (g : Nat) : Prop where
  notStar : parent ≠ some star
  there : ∀ p, parent = some p → (y.groups.find p).isSome
  sink : ∀ k, n.sink = some k → (y.sinks.find k).isSome
  sinkOrParent : n.sink.isSome ∨ parent.isSome
  level : n.level.isSome ∨ parent.isSome
  group : y.grp g = newGroup y n.name (parent.bind y.groups.find) (n.sink.bind y.sinks.find) n.level

structure Made (y y' : Sys) (D : List (Option Text × GroupNode)) : Prop where
  grpSame : ∀ x, x < y.ngroups → y'.grp x = y.grp x
  count : y'.ngroups = y.ngroups + D.length
  found : ∀ n, n ≠ star → (∀ d ∈ D, d.2.name ≠ n) → y'.groups.find n = y.groups.find n
  sinks : y'.sinks = y.sinks
  lt : ∀ k g, y'.groups.find k = some g → g < y'.ngroups
  made : ∀ d ∈ D, ∃ g, (y.ngroups ≤ g ∧ y'.groups.find d.2.name = some g) ∧ AsDeclared y' d.1 d.2 g

theorem newGroup_congr {y y' : Sys} {n : Text} {p k : Option Nat} {l : Option Level} (h : ∀ q, p = some q → y'.grp q = y.grp q) :
    newGroup y' n p k l = newGroup y n p k l := by
  unfold newGroup
  cases p with
  | none => cases l <;> rfl
  | some q => simp only [Option.bind_some, h q rfl]; cases l <;> simp only [h q rfl]

theorem Made.keep {y y' : Sys} {D : List (Option Text × GroupNode)} (h : Made y y' D) (hf : ∀ d ∈ D, y.groups.find d.2.name = none)
    (hlt : ∀ k g, y.groups.find k = some g → g < y.ngroups) {n : Text} {g : Nat} (hn : n ≠ star) (hg : y.groups.find n = some g) :
    y'.groups.find n = some g ∧ y'.grp g = y.grp g := by
  refine ⟨?_, h.grpSame g (hlt n g hg)⟩
  rw [h.found n hn, hg]
  intro d hd he
  have := hf d hd
  rw [he, hg] at this
  cases this

theorem AsDeclared.keep {y y' : Sys} {D : List (Option Text × GroupNode)} (h : Made y y' D) (hf : ∀ d ∈ D, y.groups.find d.2.name = none)
    (hlt : ∀ k g, y.groups.find k = some g → g < y.ngroups) {p : Option Text} {n : GroupNode} {g : Nat} (hg : g < y.ngroups)
    (ha : AsDeclared y p n g) : AsDeclared y' p n g := by
  have hp : ∀ q, p = some q → ∃ x, y.groups.find q = some x ∧ y'.groups.find q = some x ∧ y'.grp x = y.grp x := by
    intro q hq
    obtain ⟨x, hx⟩ := Option.isSome_iff_exists.1 (ha.there q hq)
    have h2 := h.keep hf hlt (fun e => ha.notStar (by rw [hq, e])) hx
    exact ⟨x, hx, h2.1, h2.2⟩
  refine ⟨ha.notStar, fun q hq => ?_, fun k hk => by rw [h.sinks]; exact ha.sink k hk, ha.sinkOrParent, ha.level, ?_⟩
  · obtain ⟨x, _, h2, _⟩ := hp q hq
    rw [h2]; rfl
  · rw [h.grpSame g hg, ha.group, h.sinks]
    cases hpp : p with
    | none => exact (newGroup_congr fun q hq => by cases hq).symm
    | some q =>
      obtain ⟨x, h1, h2, h3⟩ := hp q hpp
      simp only [Option.bind_some, h1, h2]
      exact (newGroup_congr fun q hq => by cases hq; exact h3).symm

theorem Made.nil {y : Sys} (hlt : ∀ k g, y.groups.find k = some g → g < y.ngroups) : Made y y [] :=
  ⟨fun _ _ => rfl, rfl, fun _ _ _ => rfl, rfl, hlt, fun d hd => by cases hd⟩

theorem Made.append {a b c : Sys} {D E : List (Option Text × GroupNode)} (h1 : Made a b D) (h2 : Made b c E)
    (hf : ∀ d ∈ E, b.groups.find d.2.name = none) (hs : ∀ d ∈ D, d.2.name ≠ star) : Made a c (D ++ E) := by
  refine ⟨fun x hx => ?_, ?_, fun n hn hd => ?_, h2.sinks.trans h1.sinks, h2.lt, fun d hd => ?_⟩
  · rw [h2.grpSame x (by rw [h1.count]; omega), h1.grpSame x hx]
  · rw [h2.count, h1.count, List.length_append, Nat.add_assoc]
  · rw [h2.found n hn fun d h => hd d (List.mem_append_right _ h), h1.found n hn fun d h => hd d (List.mem_append_left _ h)]
  · rcases List.mem_append.1 hd with hd | hd
    · obtain ⟨g, ⟨hge, hg⟩, ha⟩ := h1.made d hd
      exact ⟨g, ⟨hge, (h2.keep hf h1.lt (hs d hd) hg).1⟩, ha.keep h2 hf h1.lt (h1.lt _ _ hg)⟩
    · obtain ⟨g, ⟨hge, hg⟩, ha⟩ := h2.made d hd
      exact ⟨g, ⟨Nat.le_trans (by rw [h1.count]; exact Nat.le_add_right _ _) hge, hg⟩, ha⟩

/-- a new group -/
theorem made_group {F : Nat} {g : GroupNode} {parent : Option Text} {s s' : St} (hn : g.name ≠ star) (hp : parent ≠ some star)
    (hsk : g.sink.isSome ∨ parent.isSome)
    (hf : s.sys.groups.find g.name = none) (hlt : ∀ k x, s.sys.groups.find k = some x → x < s.sys.ngroups)
    (h : applyGroup F g parent s = .ok () s') : Made s.sys s'.sys [(parent, g)] := by
  rw [applyGroup_eq] at h
  simp only [getGroup, hf, bind_def, call, step, makeGroup_eq hlt] at h
  cases h1 : resolve s.sys.groups parent with
  | none => rw [h1] at h; simp only [Res.map] at h; cases h
  | some p =>
    cases h2 : resolve s.sys.sinks g.sink with
    | none => rw [h1, h2] at h; simp only [Res.map] at h; cases h
    | some k =>
      cases h3 : (parent.isSome || g.level.isSome) with
      | false => rw [h1, h2, h3] at h; simp only [Res.map] at h; cases h
      | true =>
        rw [h1, h2, h3] at h
        simp only [Res.map] at h
        have hp' : parent.bind s.sys.groups.find = p ∧ ∀ q, parent = some q → (s.sys.groups.find q).isSome := by
          cases parent with
          | none => cases h1; exact ⟨rfl, fun q hq => by cases hq⟩
          | some q =>
            simp only [resolve, Option.map_eq_some_iff] at h1
            obtain ⟨x, hx, rfl⟩ := h1
            exact ⟨hx, fun q' hq => by cases hq; rw [hx]; rfl⟩
        have hk' : g.sink.bind s.sys.sinks.find = k ∧ ∀ q, g.sink = some q → (s.sys.sinks.find q).isSome := by
          cases hgk : g.sink with
          | none => rw [hgk] at h2; cases h2; exact ⟨rfl, fun q hq => by cases hq⟩
          | some q =>
            rw [hgk] at h2
            simp only [resolve, Option.map_eq_some_iff] at h2
            obtain ⟨x, hx, rfl⟩ := h2
            exact ⟨hx, fun q' hq => by cases hq; rw [hx]; rfl⟩
        have hlev : g.level.isSome ∨ parent.isSome := by
          cases hl : g.level.isSome with
          | true => exact .inl rfl
          | false => rw [hl, Bool.or_false] at h3; exact .inr h3
        -- any table that has the new group and, except for `*`, the old ones
        have key : ∀ tab : Table, tab.find g.name = some s.sys.ngroups →
            (∀ n, n ≠ star → n ≠ g.name → tab.find n = s.sys.groups.find n) →
            (∀ k x, tab.find k = some x → x < s.sys.ngroups + 1) →
            Made s.sys { s.sys with
              ngroups := s.sys.ngroups + 1, grp := upd s.sys.grp s.sys.ngroups (newGroup s.sys g.name p k g.level),
              groups := tab } [(parent, g)] := by
          intro tab t1 t2 t3
          refine ⟨fun x hx => upd_other _ _ (Nat.ne_of_lt hx), rfl, fun n hn' hd => ?_, rfl, t3, fun d hd => ?_⟩
          · exact t2 n hn' fun e => hd _ (List.mem_singleton.2 rfl) e.symm
          · cases List.mem_singleton.1 hd
            have hpn : ∀ q, parent = some q → tab.find q = s.sys.groups.find q := by
              intro q hq
              refine t2 q (fun e => hp (by rw [hq, e])) fun e => ?_
              have h5 := hp'.2 q hq
              rw [e, hf] at h5
              cases h5
            refine ⟨s.sys.ngroups, ⟨Nat.le_refl _, t1⟩, hp, fun q hq => ?_, hk'.2, hsk, hlev, ?_⟩
            · simp only [hpn q hq]; exact hp'.2 q hq
            · have e1 : parent.bind tab.find = p := by
                rw [← hp'.1]
                cases hpp : parent with
                | none => rfl
                | some q => exact hpn q hpp
              simp only [upd_same, e1, hk'.1]
              refine (newGroup_congr fun q hq => ?_).symm
              have hq' : q < s.sys.ngroups := by
                rw [← hp'.1] at hq
                cases hpp : parent with
                | none => rw [hpp] at hq; cases hq
                | some pn => rw [hpp] at hq; exact hlt pn q hq
              exact upd_other _ _ (Nat.ne_of_lt hq')
        have htab : ∀ k x, ((if (s.sys.groups.find star).isNone then s.sys.groups.put star s.sys.ngroups else s.sys.groups).put
            g.name s.sys.ngroups).find k = some x → x < s.sys.ngroups + 1 := by
          intro k x hx
          rw [Table.find_put] at hx
          split at hx
          · cases hx; exact Nat.lt_succ_self _
          · split at hx
            · rw [Table.find_put] at hx
              split at hx
              · cases hx; exact Nat.lt_succ_self _
              · exact Nat.lt_succ_of_lt (hlt _ _ hx)
            · exact Nat.lt_succ_of_lt (hlt _ _ hx)
        have hold : ∀ n, n ≠ star → n ≠ g.name →
            ((if (s.sys.groups.find star).isNone then s.sys.groups.put star s.sys.ngroups else s.sys.groups).put
              g.name s.sys.ngroups).find n = s.sys.groups.find n := by
          intro n h5 h6
          rw [Table.find_put_ne _ _ h6]
          split
          · rw [Table.find_put_ne _ _ h5]
          · rfl
        cases hfb : g.isFallback with
        | false =>
          rw [hfb] at h
          simp only [Bool.false_eq_true, if_false, pure_def] at h
          cases h
          exact key _ (Table.find_put_self _ _ _) hold htab
        | true =>
          rw [hfb] at h
          simp only [if_true, call, step, setFallbackGroup, Table.find_put_self, Res.map] at h
          cases h
          refine key _ ?_ ?_ ?_
          · rw [Table.find_put_ne _ _ hn, Table.find_put_self]
          · intro n h5 h6
            rw [Table.find_put_ne _ _ h5]
            exact hold n h5 h6
          · intro k x hx
            rw [Table.find_put] at hx
            split at hx
            · cases hx; exact Nat.lt_succ_self _
            · exact htab _ _ hx

theorem groupAt_sink {W : World} {e : List (Nat × Nat)} {parent : Option Text} {t : Table} {g : GroupNode}
    (h : groupAt W e parent t = some (some g)) : g.sink.isSome ∨ parent.isSome := by
  unfold groupAt at h
  cases h1 : readFallback W e with
  | none => rw [h1] at h; cases h
  | some fb =>
    cases h2 : keysOk W e with
    | none => rw [h1, h2] at h; cases h
    | some _ =>
      rw [h1, h2] at h
      simp only [Option.bind_some, Option.some.injEq] at h
      unfold usable at h
      split at h
      · cases h
        have hsk : (readGroupSink W e parent t).2 = true := by assumption
        simp only
        unfold readGroupSink at hsk ⊢
        cases hpp : prop W e "sink".toList with
        | none =>
          cases parent with
          | none => exact .inl rfl
          | some _ => exact .inr rfl
        | some n =>
          cases n with
          | scalar _ => exact .inl rfl
          | _ => rw [hpp] at hsk; cases hsk
      · cases h

theorem made_groups (W : World) (F f : Nat) :
    (∀ parent i items s s', parent ≠ some star → (∀ k x, s.sys.groups.find k = some x → x < s.sys.ngroups) →
      ((declaredGroups W s.sys.sinks f parent items).map (·.2.name)).Nodup →
      (∀ d ∈ declaredGroups W s.sys.sinks f parent items, s.sys.groups.find d.2.name = none) →
      parseGroupList W (parseGroup W F f parent) i items s = .ok () s' →
      Made s.sys s'.sys (declaredGroups W s.sys.sinks f parent items)) ∧
    (∀ (t : Table) (items : Option Text × List Nat), ∀ d ∈ declaredGroups W t f items.1 items.2, d.2.name ≠ star) := by
  induction f with
  | zero =>
    refine ⟨fun parent i items s s' _ hlt hnd hf h => ?_, fun _ _ d hd => by cases hd⟩
    have : Quiet s s' := by
      clear hlt hnd hf
      induction items generalizing i s with
      | nil => cases h; exact .refl _
      | cons n ns ih =>
        unfold parseGroupList at h
        rw [bind_def] at h
        unfold parseGroupItem at h
        cases hn : W.node n with
        | map e => rw [hn] at h; simp only [parseGroup] at h; cases h
        | _ =>
          rw [hn] at h
          obtain ⟨s1, h1, e1⟩ := Reading.error (.groupNotMap i) s
          simp only [e1, give] at h
          exact h1.trans (ih (i + 1) s1 h)
    rw [this.1]
    exact Made.nil hlt
  | succ f ih =>
    constructor
    · intro parent i items
      induction items generalizing i with
      | nil => intro s s' _ hlt _ _ h; cases h; exact Made.nil hlt
      | cons n ns ihl =>
        intro s s' hp hlt hnd hf h
        unfold parseGroupList at h
        rw [bind_def] at h
        have hsplit : declaredGroups W s.sys.sinks (f + 1) parent (n :: ns) =
            declaredGroups W s.sys.sinks (f + 1) parent [n] ++ declaredGroups W s.sys.sinks (f + 1) parent ns := by
          simp only [declaredGroups, List.flatMap_cons, List.flatMap_nil, List.append_nil]
        rw [hsplit] at hnd hf ⊢
        rw [List.map_append, List.nodup_append] at hnd
        -- the first element
        have hone : ∀ s1, parseGroupItem W (parseGroup W F (f + 1) parent) i n s = .ok () s1 →
            Made s.sys s1.sys (declaredGroups W s.sys.sinks (f + 1) parent [n]) := by
          intro s1 h1
          have hq : ∀ {s1}, Quiet s s1 → declaredGroups W s.sys.sinks (f + 1) parent [n] = [] →
              Made s.sys s1.sys (declaredGroups W s.sys.sinks (f + 1) parent [n]) := by
            intro s1 hq he
            rw [he, hq.1]; exact Made.nil hlt
          unfold parseGroupItem at h1
          cases hn : W.node n with
          | map e =>
            rw [hn] at h1
            simp only [parseGroup_succ, bind_def] at h1
            obtain ⟨s2, hq2, e2⟩ := read_readGroup W i e parent s
            rw [e2] at h1
            simp only at h1
            cases hg : groupAt W e parent s.sys.sinks with
            | none => rw [hg] at h1; cases h1
            | some o =>
              rw [hg] at h1
              cases o with
              | none =>
                cases h1
                exact hq hq2 (by simp only [declaredGroups, List.flatMap_cons, List.flatMap_nil, List.append_nil, hn, hg])
              | some g =>
                simp only [give, afterRead] at h1
                split at h1
                · rename_i hstar
                  obtain ⟨s3, hq3, e3⟩ := Reading.error .groupReserved s2
                  rw [e3] at h1
                  cases h1
                  exact hq (hq2.trans hq3) (by
                    simp only [declaredGroups, List.flatMap_cons, List.flatMap_nil, List.append_nil, hn, hg, if_pos hstar])
                · rename_i hstar
                  have he : declaredGroups W s.sys.sinks (f + 1) parent [n] = [(parent, g)] ++ (match g.children with
                      | some cs => declaredGroups W s.sys.sinks f (some g.name) cs
                      | none => []) := by
                    simp only [declaredGroups, List.flatMap_cons, List.flatMap_nil, List.append_nil, hn, hg, if_neg hstar,
                      List.singleton_append]
                  rw [he] at hnd hf ⊢
                  rw [bind_def] at h1
                  cases ha : applyGroup F g parent s2 with
                  | throw s3 => rw [ha] at h1; cases h1
                  | ub => rw [ha] at h1; cases h1
                  | diverge => rw [ha] at h1; cases h1
                  | ok u s3 =>
                    rw [ha] at h1
                    have hfg : s.sys.groups.find g.name = none := hf (parent, g) (by simp)
                    have hm := made_group (s := s2) hstar hp (groupAt_sink hg) (by rw [hq2.1]; exact hfg)
                      (by rw [hq2.1]; exact hlt) ha
                    rw [hq2.1] at hm
                    have hnd1 := hnd.1
                    rw [List.map_append, List.nodup_append] at hnd1
                    cases hc : g.children with
                    | none =>
                      rw [hc] at h1
                      cases h1
                      simpa using hm
                    | some cs =>
                      rw [hc] at h1 hnd1 hf
                      simp only at h1 hnd1 hf ⊢
                      rw [← hm.sinks] at hnd1 hf ⊢
                      have hfresh : ∀ d ∈ declaredGroups W s3.sys.sinks f (some g.name) cs, s3.sys.groups.find d.2.name = none := by
                        intro d hd
                        rw [hm.found _ (ih.2 _ (some g.name, cs) d hd)]
                        · exact hf d (by simp [hd])
                        · intro d' hd' hde
                          rw [List.mem_singleton] at hd'
                          subst hd'
                          exact hnd1.2.2 g.name (by simp) d.2.name (List.mem_map.2 ⟨d, hd, rfl⟩) hde
                      refine hm.append (ih.1 (some g.name) 0 cs s3 s1 (fun h => hstar (Option.some.inj h)) hm.lt hnd1.2.1 hfresh h1) hfresh ?_
                      intro d hd
                      rw [List.mem_singleton] at hd
                      subst hd
                      exact hstar
          | _ =>
            rw [hn] at h1
            obtain ⟨s3, hq3, e3⟩ := Reading.error (.groupNotMap i) s
            simp only [e3] at h1
            cases h1
            exact hq hq3 (by simp only [declaredGroups, List.flatMap_cons, List.flatMap_nil, List.append_nil, hn])
        cases h1 : parseGroupItem W (parseGroup W F (f + 1) parent) i n s with
        | throw s1 => rw [h1] at h; cases h
        | ub => rw [h1] at h; cases h
        | diverge => rw [h1] at h; cases h
        | ok u s1 =>
          rw [h1] at h
          have hm := hone s1 h1
          have hsame := hm.sinks
          have hstars : ∀ items, ∀ d ∈ declaredGroups W s.sys.sinks (f + 1) parent items, d.2.name ≠ star := by
            intro items d hd
            simp only [declaredGroups, List.mem_flatMap] at hd
            obtain ⟨m, _, hd⟩ := hd
            split at hd
            · split at hd
              · split at hd
                · cases hd
                · rename_i hs
                  rcases List.mem_cons.1 hd with rfl | hd
                  · exact hs
                  · split at hd
                    · exact ih.2 _ (some _, _) d hd
                    · cases hd
              · cases hd
            · cases hd
          have hfresh : ∀ d ∈ declaredGroups W s1.sys.sinks (f + 1) parent ns, s1.sys.groups.find d.2.name = none := by
            rw [hsame]
            intro d hd
            rw [hm.found _ (hstars _ d hd)]
            · exact hf d (List.mem_append_right _ hd)
            · intro d' hd' he
              exact hnd.2.2 d'.2.name (List.mem_map.2 ⟨d', hd', rfl⟩) d.2.name (List.mem_map.2 ⟨d, hd, rfl⟩) he
          have h2 := ihl (i + 1) s1 s' hp hm.lt (by rw [hsame]; exact hnd.2.1) hfresh h
          rw [hsame] at h2 hfresh
          exact hm.append h2 hfresh (hstars [n])
    · rintro t ⟨parent, items⟩ d hd
      simp only [declaredGroups, List.mem_flatMap] at hd
      obtain ⟨m, _, hd⟩ := hd
      split at hd
      · split at hd
        · split at hd
          · cases hd
          · rename_i hs
            rcases List.mem_cons.1 hd with rfl | hd
            · exact hs
            · split at hd
              · exact ih.2 _ (some _, _) d hd
              · cases hd
        · cases hd
      · cases hd

end Yaml
end Soralog
