import Verif.Proofs.YamlGroups
import Verif.Props.SystemTree
import Verif.Props.SystemMore
/-!
# configure() ends: a document without cycles in which no group is nested directly in a node of its own name
-/
namespace Soralog
namespace Yaml

open Soralog.System

/-- the outcome is a value or an exception, in a state reached by allowed calls -/
def Good {α : Type} : Out α → Prop
  | .ok _ s => ReachBy noSelfParent s.sys
  | .throw s => ReachBy noSelfParent s.sys
  | .ub => False
  | .diverge => False

/-- From some bounds on (`F` for the recursion inside the system, `f ≥ r` for the nesting) the outcome is the same one, and
good. -/
def Settles {α : Type} (m : Nat → Nat → M α) (r : Nat) (s : St) : Prop :=
  ∃ N o, (∀ F f, N ≤ F → r ≤ f → m F f s = o) ∧ Good o

theorem Settles.bind {α β : Type} {m : Nat → Nat → M α} {k : α → Nat → Nat → M β} {r : Nat} {s : St} (hm : Settles m r s)
    (hk : ∀ a s', ReachBy noSelfParent s'.sys → (∃ F f, m F f s = .ok a s') → Settles (k a) r s') :
    Settles (fun F f => m F f >>= fun a => k a F f) r s := by
  obtain ⟨N, o, h1, h2⟩ := hm
  cases o with
  | ok a s' =>
    obtain ⟨N', o', h3, h4⟩ := hk a s' h2 ⟨N, r, h1 N r (Nat.le_refl _) (Nat.le_refl _)⟩
    refine ⟨max N N', o', fun F f hF hf => ?_, h4⟩
    show (m F f >>= fun a => k a F f) s = o'
    rw [bind_def, h1 F f (Nat.le_trans (Nat.le_max_left _ _) hF) hf]
    exact h3 F f (Nat.le_trans (Nat.le_max_right _ _) hF) hf
  | throw s' =>
    refine ⟨N, .throw s', fun F f hF hf => ?_, h2⟩
    show (m F f >>= fun a => k a F f) s = .throw s'
    rw [bind_def, h1 F f hF hf]
  | ub => exact h2.elim
  | diverge => exact h2.elim

theorem Settles.reading {α : Type} {m : M α} {q : Sys → Option α} (h : Reading m q) {r : Nat} {s : St}
    (hs : ReachBy noSelfParent s.sys) : Settles (fun _ _ => m) r s := by
  obtain ⟨s', h1, h2⟩ := h s
  refine ⟨0, _, fun _ _ _ _ => h2, ?_⟩
  rw [← h1.1] at hs
  cases q s.sys with
  | none => exact hs
  | some a => exact hs

theorem groupOp_noUb {F : Nat} {s : Sys} {op : Op} (h : yamlOp s op) : step F s op ≠ .ub := by
  have hof : ∀ r : Option Sys, (ofOption r).map Val.bool ≠ .ub := by intro r; cases r <;> intro h <;> cases h
  cases op with
  | makeSink n => intro h; cases h
  | makeGroup n p k l =>
    simp only [step, makeGroup]
    repeat' split
    all_goals intro h; cases h
  | setFallbackGroup n =>
    simp only [step, setFallbackGroup]
    split <;> intro h <;> cases h
  | setParentOfGroup g p =>
    simp only [step, setParentOfGroup]
    split
    · intro h; cases h
    · split
      · intro h; cases h
      · split
        · intro h; cases h
        · intro h; cases h
        · exact hof _
  | setSinkOfGroup g p =>
    simp only [step, setSinkOfGroup]
    split
    · intro h; cases h
    · split
      · intro h; cases h
      · exact hof _
  | setLevelOfGroup g p =>
    simp only [step, setLevelOfGroup]
    split
    · intro h; cases h
    · exact hof _
  | _ => exact h.elim

theorem Settles.call {op : Op} {r : Nat} {s : St} (hs : ReachBy noSelfParent s.sys) (ho : yamlOp s.sys op)
    (hn : noSelfParent s.sys op) : Settles (fun F _ => Yaml.call F op) r s := by
  have hd : step (s.sys.ngroups + 1) s.sys op ≠ .diverge := C39_histories_partial hs op (Nat.lt_succ_self _)
  refine ⟨s.sys.ngroups + 1, Yaml.call (s.sys.ngroups + 1) op s, fun F f hF _ => ?_, ?_⟩
  · show Yaml.call F op s = _
    unfold Yaml.call
    rw [step_mono hs.wf hd hF]
  · unfold Yaml.call
    cases he : step (s.sys.ngroups + 1) s.sys op with
    | ret v y => exact .call hs hn he
    | throw y => exact .failed hs hn he
    | ub => exact groupOp_noUb ho he
    | diverge => exact hd he

/-- calls for groups other than `setParentOfGroup` -/
theorem noSelf_other {s : Sys} {op : Op} (h : ∀ g p, op ≠ .setParentOfGroup g p) : noSelfParent s op := by
  cases op with
  | setParentOfGroup g p => exact absurd rfl (h g p)
  | _ => trivial

theorem noSelf_names {s : Sys} (hw : WF s) {g p : Text} (h1 : g ≠ star) (h2 : p ≠ star) (h : g ≠ p) :
    noSelfParent s (.setParentOfGroup g p) := by
  show s.groups.find g = none ∨ s.groups.find g ≠ s.groups.find p
  cases hg : s.groups.find g with
  | none => exact .inl rfl
  | some x =>
    refine .inr fun hp => h ?_
    rcases hw.gName g x hg with e | e
    · exact absurd e h1
    · rcases hw.gName p x hp.symm with e' | e'
      · exact absurd e' h2
      · rw [← e, ← e']

theorem settles_applyGroup {g : GroupNode} {parent : Option Text} {r : Nat} {s : St} (hs : ReachBy noSelfParent s.sys)
    (hn : g.name ≠ star) (hp : parent ≠ some star) (hne : parent ≠ some g.name) (hsk : g.sink.isSome ∨ parent.isSome) :
    Settles (fun F _ => applyGroup F g parent) r s := by
  have hfb : ∀ s', ReachBy noSelfParent s'.sys →
      Settles (fun F _ => (if g.isFallback then Yaml.call F (.setFallbackGroup g.name) else pure () : M Unit)) r s' := by
    intro s' hs'
    cases g.isFallback with
    | true => exact Settles.call hs' hn trivial
    | false => exact Settles.reading (Reading.pure ()) hs'
  cases hf : getGroup g.name s.sys with
  | some old =>
    have h : Settles (fun F _ => updateGroup F g parent >>= fun _ =>
        (if g.isFallback then Yaml.call F (.setFallbackGroup g.name) else pure () : M Unit)) r s := by
      refine Settles.bind (k := fun _ F _ => (if g.isFallback then Yaml.call F (.setFallbackGroup g.name) else pure () : M Unit))
        ?_ fun _ s' hs' _ => hfb s' hs'
      unfold updateGroup
      refine Settles.bind (k := fun _ F _ => _) ?_ fun _ s1 hs1 _ => Settles.bind (k := fun _ F _ => _) ?_ fun _ s2 hs2 _ => ?_
      · cases hpp : parent with
        | none => exact Settles.reading (Reading.pure ()) hs
        | some p =>
          exact Settles.call hs ⟨hn, fun e => hp (by rw [hpp, e])⟩
            (noSelf_names hs.wf hn (fun e => hp (by rw [hpp, e])) fun e => hne (by rw [hpp, e]))
      · cases g.sink with
        | none => exact Settles.reading (Reading.pure ()) hs1
        | some k => exact Settles.call hs1 hn trivial
      · cases g.level with
        | none => exact Settles.reading (Reading.pure ()) hs2
        | some l => exact Settles.call hs2 hn trivial
    obtain ⟨N, o, h1, h2⟩ := h
    refine ⟨N, o, fun F f hF hr => ?_, h2⟩
    show applyGroup F g parent s = o
    rw [applyGroup_eq, hf]
    exact h1 F f hF hr
  | none =>
    have h : Settles (fun F _ => Yaml.call F (.makeGroup g.name parent g.sink g.level) >>= fun _ =>
        (if g.isFallback then Yaml.call F (.setFallbackGroup g.name) else pure () : M Unit)) r s := by
      refine Settles.bind (k := fun _ F _ => (if g.isFallback then Yaml.call F (.setFallbackGroup g.name) else pure () : M Unit))
        ?_ fun _ s' hs' _ => hfb s' hs'
      exact Settles.call hs ⟨hn, hf, hsk.symm, hp⟩ trivial
    obtain ⟨N, o, h1, h2⟩ := h
    refine ⟨N, o, fun F f hF hr => ?_, h2⟩
    show applyGroup F g parent s = o
    rw [applyGroup_eq, hf]
    exact h1 F f hF hr

theorem groupAt_facts {W : World} {e : List (Nat × Nat)} {parent : Option Text} {t : Table} {g : GroupNode}
    (h : groupAt W e parent t = some (some g)) :
    textAt W e "name".toList = some g.name ∧ readChildren W e = some g.children ∧ levelAt W e = g.level ∧
    readGroupSink W e parent t = (g.sink, true) := by
  unfold groupAt at h
  cases h1 : readFallback W e with
  | none => rw [h1] at h; cases h
  | some fb =>
    cases h2 : keysOk W e with
    | none => rw [h1, h2] at h; cases h
    | some _ =>
      rw [h1, h2] at h
      simp only [Option.bind_some, Option.some.injEq] at h
      unfold usable at h
      split at h
      · rename_i hname hfb hsk _ _ hc
        cases h
        refine ⟨by assumption, by assumption, rfl, ?_⟩
        have : (readGroupSink W e parent t).2 = true := by assumption
        exact Prod.ext rfl this
      · cases h

theorem settles_groups (W : World) (rank : Nat → Nat) (hrank : ∀ c n, Nested W c n → rank c < rank n)
    (hname : ∀ c n, Nested W c n → (nameOf W c).isSome → nameOf W c ≠ nameOf W n) (r : Nat) :
    ∀ (parent : Option Text) (items : List Nat), (∀ n ∈ items, rank n < r) → parent ≠ some star →
      (∀ n ∈ items, parent.isSome → (nameOf W n).isSome → nameOf W n ≠ parent) → ∀ (i : Nat) (s : St), ReachBy noSelfParent s.sys →
      Settles (fun F f => parseGroupList W (parseGroup W F f parent) i items) r s := by
  induction r with
  | zero =>
    intro parent items hr hp hne i s hs
    cases items with
    | nil => exact Settles.reading (Reading.pure ()) hs
    | cons n ns => exact absurd (hr n List.mem_cons_self) (Nat.not_lt_zero _)
  | succ r ih =>
    intro parent items hr hp hne
    induction items with
    | nil => intro i s hs; exact Settles.reading (Reading.pure ()) hs
    | cons n ns ihl =>
      intro i s hs
      simp only [parseGroupList]
      refine Settles.bind (k := fun _ F f => parseGroupList W (parseGroup W F f parent) (i + 1) ns) ?_ fun _ s' hs' _ =>
        ihl (fun m hm => hr m (List.mem_cons_of_mem _ hm)) (fun m hm => hne m (List.mem_cons_of_mem _ hm)) (i + 1) s' hs'
      unfold parseGroupItem
      cases hn : W.node n with
      | map e =>
        simp only
        suffices h : Settles (fun F f => readGroup W i e parent >>= fun o => afterRead W F (f - 1) parent o) (r + 1) s by
          obtain ⟨N, o, h1, h2⟩ := h
          refine ⟨N, o, fun F f hF hf => ?_, h2⟩
          obtain ⟨f', rfl⟩ : ∃ f', f = f' + 1 := ⟨f - 1, by omega⟩
          show parseGroup W F (f' + 1) parent i e s = o
          rw [parseGroup_succ]
          exact h1 F (f' + 1) hF hf
        refine Settles.bind (k := fun o F f => afterRead W F (f - 1) parent o) (Settles.reading (read_readGroup W i e parent) hs)
          fun o s1 hs1 ho => ?_
        obtain ⟨_, _, ho⟩ := ho
        have hg : groupAt W e parent s.sys.sinks = some o := by
          obtain ⟨s', _, h3⟩ := read_readGroup W i e parent s
          rw [ho] at h3
          simp only at h3
          cases hg : groupAt W e parent s.sys.sinks with
          | none => rw [hg] at h3; cases h3
          | some o' => rw [hg] at h3; cases h3; rfl
        unfold afterRead
        cases o with
        | none => exact Settles.reading (Reading.pure ()) hs1
        | some g =>
          obtain ⟨f1, f2, _, _⟩ := groupAt_facts hg
          have hnm : nameOf W n = some g.name := by unfold nameOf; rw [hn]; exact f1
          simp only
          by_cases hstar : g.name = star
          · simp only [if_pos hstar]
            exact Settles.reading (Reading.error _) hs1
          · simp only [if_neg hstar]
            refine Settles.bind (k := fun _ F f => _) (settles_applyGroup hs1 hstar hp ?_ (groupAt_sink hg)) fun _ s2 hs2 _ => ?_
            · intro hpp
              have := hne n List.mem_cons_self (by rw [hpp]; rfl) (by rw [hnm]; rfl)
              rw [hnm, hpp] at this
              exact this rfl
            · cases hc : g.children with
              | none => exact Settles.reading (Reading.pure ()) hs2
              | some items =>
                have hch : prop W e "children".toList = some (.seq items) := by
                  rw [hc] at f2
                  unfold readChildren at f2
                  split at f2
                  · cases f2
                  · cases f2
                  · rename_i h3; cases f2; exact h3
                  · cases f2
                have hnest : ∀ c ∈ items, Nested W c n := fun c hc => ⟨e, items, hn, hch, hc⟩
                have h := ih (some g.name) items (fun c hc => by
                    have h3 := hrank c n (hnest c hc)
                    have h4 := hr n List.mem_cons_self
                    omega) (fun h => hstar (Option.some.inj h))
                  (fun c hc _ hcs => by rw [← hnm]; exact hname c n (hnest c hc) hcs) 0 s2 hs2
                obtain ⟨N, o, h1, h2⟩ := h
                exact ⟨N, o, fun F f hF hf => h1 F (f - 1) hF (by omega), h2⟩
      | _ => exact Settles.reading (Reading.error _) hs

/-! ### sinks -/

/-- reachability is kept -/
def Keeps (ok : Sys → Op → Prop) (s s' : St) : Prop := ReachBy ok s.sys → ReachBy ok s'.sys

instance (ok : Sys → Op → Prop) : Pre (Keeps ok) where
  refl _ := id
  trans h1 h2 := h2 ∘ h1

instance (ok : Sys → Op → Prop) : Reads (Keeps ok) where
  error _ _ _ := fun _ => ⟨id, trivial⟩
  warning _ _ _ := fun _ => ⟨id, trivial⟩

theorem keeps_createSink {W : World} {ok : Sys → Op → Prop} (hok : ∀ s n, ok s (.makeSink n)) (name : Text) (spec : Spec) :
    Tri (Keeps ok) Any (createSink W name spec) :=
  tri_createSink fun s b _ h => .call (fuel := 0) (op := .makeSink name) h (hok _ _) rfl

instance (W : World) : Sinks W (Keeps noSelfParent) where
  sinkNoName _ := fun _ => ⟨id, trivial⟩
  sinkNotMap _ := fun _ => ⟨id, trivial⟩
  multiMissing _ _ := fun _ => ⟨id, trivial⟩
  create _ _ _ := keeps_createSink (fun _ _ => trivial) _ _

/-- the program ends with a value or an exception -/
def Ends {α : Type} (m : M α) : Prop := ∀ s, m s ≠ .ub ∧ m s ≠ .diverge

theorem ends_createSink (W : World) (name : Text) (spec : Spec) : Ends (createSink W name spec) := by
  intro s
  rcases createSink_cases W name spec s with h | ⟨_, b, h⟩
  · rw [h]; exact ⟨nofun, nofun⟩
  · rw [h]; exact ⟨nofun, nofun⟩

theorem Reading.ends {α : Type} {m : M α} {r : Sys → Option α} (h : Reading m r) : Ends m := by
  intro s
  obtain ⟨s', _, e⟩ := h s
  rw [e]
  cases r s.sys <;> exact ⟨nofun, nofun⟩

theorem Creates.ends {W : World} {m : M Unit} {r : Option (Option (Text × Decl))} (h : Creates W m r) : Ends m := by
  intro s
  obtain ⟨s', _, e⟩ := h s
  rw [e]
  cases r with
  | none => exact ⟨nofun, nofun⟩
  | some o =>
    cases o with
    | none => exact ⟨nofun, nofun⟩
    | some nd => exact ends_createSink W _ _ _

theorem Ends.bind {α β : Type} {m : M α} {k : α → M β} (hm : Ends m) (hk : ∀ a, Ends (k a)) : Ends (m >>= k) := by
  intro s
  rw [bind_def]
  cases he : m s with
  | ok a s' => exact hk a s'
  | throw s' => exact ⟨nofun, nofun⟩
  | ub => exact absurd he (hm s).1
  | diverge => exact absurd he (hm s).2

theorem ends_parseSinkList (W : World) (i : Nat) (items : List Nat) : Ends (parseSinkList W i items) := by
  induction items generalizing i with
  | nil => exact (Reading.pure ()).ends
  | cons n ns ih => exact Ends.bind (creates_item W i n).ends fun _ => ih _

theorem ends_parseSinks (W : World) (n : Node) : Ends (parseSinks W n) := by
  cases n with
  | null => exact (Reading.error _).ends
  | seq items => exact ends_parseSinkList W 0 items
  | _ => exact (Reading.error _).ends

theorem Settles.tri {α : Type} {m : M α} (h : Ends m) (ht : Tri (Keeps noSelfParent) Any m) {r : Nat} {s : St}
    (hs : ReachBy noSelfParent s.sys) : Settles (fun _ _ => m) r s := by
  refine ⟨0, m s, fun _ _ _ _ => rfl, ?_⟩
  have h1 := h s
  have h2 := ht s
  cases he : m s with
  | ok a s' => rw [he] at h2; exact h2.1 hs
  | throw s' => rw [he] at h2; exact h2 hs
  | ub => exact h1.1 he
  | diverge => exact h1.2 he

/-! ### whole documents -/

theorem list_bound (rank : Nat → Nat) (items : List Nat) : ∃ r, ∀ n ∈ items, rank n < r := by
  induction items with
  | nil => exact ⟨0, fun n h => by cases h⟩
  | cons n ns ih =>
    obtain ⟨r, hr⟩ := ih
    refine ⟨max r (rank n + 1), fun m hm => ?_⟩
    rcases List.mem_cons.1 hm with rfl | hm
    · exact Nat.lt_of_lt_of_le (Nat.lt_succ_self _) (Nat.le_max_right _ _)
    · exact Nat.lt_of_lt_of_le (hr m hm) (Nat.le_max_left _ _)

/-- from some bound on the outcome is the same one, and good -/
def Fixed {α : Type} (m : Nat → M α) (s : St) : Prop := ∃ N o, (∀ F, N ≤ F → m F s = o) ∧ Good o

theorem Fixed.bind {α β : Type} {m : Nat → M α} {k : α → Nat → M β} {s : St} (hm : Fixed m s)
    (hk : ∀ a s', ReachBy noSelfParent s'.sys → Fixed (k a) s') : Fixed (fun F => m F >>= fun a => k a F) s := by
  obtain ⟨N, o, h1, h2⟩ := hm
  cases o with
  | ok a s' =>
    obtain ⟨N', o', h3, h4⟩ := hk a s' h2
    refine ⟨max N N', o', fun F hF => ?_, h4⟩
    show (m F >>= fun a => k a F) s = o'
    rw [bind_def, h1 F (Nat.le_trans (Nat.le_max_left _ _) hF)]
    exact h3 F (Nat.le_trans (Nat.le_max_right _ _) hF)
  | throw s' =>
    refine ⟨N, .throw s', fun F hF => ?_, h2⟩
    show (m F >>= fun a => k a F) s = .throw s'
    rw [bind_def, h1 F hF]
  | ub => exact h2.elim
  | diverge => exact h2.elim

theorem Settles.fixed {α : Type} {m : Nat → Nat → M α} {r : Nat} {s : St} (h : Settles m r s) : Fixed (fun F => m F F) s := by
  obtain ⟨N, o, h1, h2⟩ := h
  exact ⟨max N r, o, fun F hF => h1 F F (Nat.le_trans (Nat.le_max_left _ _) hF) (Nat.le_trans (Nat.le_max_right _ _) hF), h2⟩

theorem Fixed.tri {α : Type} {m : M α} (h : Ends m) (ht : Tri (Keeps noSelfParent) Any m) {s : St}
    (hs : ReachBy noSelfParent s.sys) : Fixed (fun _ => m) s := (Settles.tri (r := 0) h ht hs).fixed

theorem Fixed.reading {α : Type} {m : M α} {q : Sys → Option α} (h : Reading m q) {s : St}
    (hs : ReachBy noSelfParent s.sys) : Fixed (fun _ => m) s := (Settles.reading (r := 0) h hs).fixed

theorem fixed_parse {W : World} (hW : Plain W) (root : Node) {s : St} (hs : ReachBy noSelfParent s.sys) :
    Fixed (fun F => parse W F root) s := by
  cases root with
  | map entries =>
    simp only [parse]
    refine Fixed.bind (k := fun _ F => _) ?_ fun _ s1 hs1 => Fixed.bind (k := fun _ F => _) (Fixed.reading (read_checkKeys W _ _ _) hs1)
      fun _ s2 hs2 => Fixed.bind (k := fun _ F => _) ?_ fun _ s3 hs3 => ?_
    · split
      · exact Fixed.reading (Reading.error _) hs
      · exact Fixed.reading (Reading.pure ()) hs
    · cases prop W entries "sinks".toList with
      | none => exact Fixed.reading (Reading.pure ()) hs2
      | some n => exact Fixed.tri (ends_parseSinks W n) (tri_parseSinks W n) hs2
    · cases prop W entries "groups".toList with
      | none => exact Fixed.reading (Reading.pure ()) hs3
      | some n =>
        simp only [parseGroups]
        cases n with
        | null => exact Fixed.reading (Reading.error _) hs3
        | seq items =>
          obtain ⟨rank, hrank⟩ := hW.acyclic
          obtain ⟨r, hr⟩ := list_bound rank items
          exact (settles_groups W rank hrank hW.names r none items hr nofun (fun _ _ h => by cases h) 0 s3 hs3).fixed
        | _ => exact Fixed.reading (Reading.error _) hs3
  | _ => exact Fixed.reading (Reading.error _) hs

theorem fixed_runOn {W : World} (hW : Plain W) (src : Source) (r : Result) {s : St} (hs : ReachBy noSelfParent s.sys) :
    Fixed (fun F => runOn W F src r) s := by
  simp only [runOn]
  refine Fixed.bind (k := fun _ F => _) ⟨0, .ok () _, fun _ _ => rfl, hs⟩ fun _ s1 hs1 => Fixed.bind (k := fun _ F => _) ?_ fun _ s2 hs2 =>
    ⟨0, .ok _ s2, fun _ _ => rfl, hs2⟩
  cases src with
  | document root => exact fixed_parse hW _ hs1
  | unreadable p w => cases p <;> exact Fixed.reading (Reading.error _) hs1

theorem fixed_fallback (W : World) (level : Level) (color : Bool) {s : St} (hs : ReachBy noSelfParent s.sys) :
    Fixed (fun F => applyFallback W F level color) s := by
  simp only [applyFallback]
  refine Fixed.bind (k := fun _ F => _) (Fixed.tri (ends_createSink W _ _) (keeps_createSink (fun _ _ => trivial) _ _) hs)
    fun _ s1 hs1 => Fixed.bind (k := fun _ F => _) ?_ fun _ s2 hs2 => ⟨0, .ok _ s2, fun _ _ => rfl, hs2⟩
  refine ⟨0, call 0 (.makeGroup star none (some "console".toList) (some level)) s1, fun F _ => rfl, ?_⟩
  unfold call
  cases he : step 0 s1.sys (.makeGroup star none (some "console".toList) (some level)) with
  | ret v y => exact .call hs1 (op := .makeGroup star none (some "console".toList) (some level)) trivial he
  | throw y => exact .failed hs1 (op := .makeGroup star none (some "console".toList) (some level)) trivial he
  | ub =>
    simp only [step, makeGroup] at he
    revert he
    repeat' split
    all_goals intro h; cases h
  | diverge =>
    simp only [step, makeGroup] at he
    revert he
    repeat' split
    all_goals intro h; cases h

theorem fixed_applyOn {W : World} (hW : Plain W) (c : Configurator) {s : St} (hs : ReachBy noSelfParent s.sys) :
    Fixed (fun F => applyOn W F c) s := by
  induction c generalizing s with
  | fallback level color => exact fixed_fallback W level color hs
  | yaml src => exact fixed_runOn hW src _ hs
  | yamlAfter p src ih =>
    simp only [applyOn]
    exact Fixed.bind (k := fun r F => runOn W F src r) (ih hs) fun r s1 hs1 => fixed_runOn hW src r hs1

/-! ### every group has a sink -/

theorem yamlOp_roots {s : Sys} {op : Op} (h : yamlOp s op) : rootsNameSink s op := by
  cases op with
  | makeGroup n p k l => exact h.2.2.1
  | _ => trivial

theorem keeps_parse (W : World) (F : Nat) (root : Node) : Tri (Keeps rootsNameSink) Any (parse W F root) :=
  (tri_parse W F root (P := CallsOnly)).weaken fun s s' h hr => Calls.reach h hr fun _ _ => yamlOp_roots

theorem keeps_runOn (W : World) (F : Nat) (src : Source) (r : Result) : Tri (Keeps rootsNameSink) Any (runOn W F src r) := by
  unfold runOn
  refine Tri.bind (Q := Any) (fun s => ⟨id, trivial⟩) fun _ _ => Tri.bind (Q := Any) ?_ fun _ _ => fun s => ⟨id, trivial⟩
  cases src with
  | document root => exact keeps_parse W F _
  | unreadable p w => cases p <;> exact Reads.error _ rfl rfl

theorem keeps_applyOn (W : World) (F : Nat) (c : Configurator) : Tri (Keeps rootsNameSink) Any (applyOn W F c) := by
  induction c with
  | fallback level color =>
    unfold applyOn applyFallback
    refine Tri.bind (Q := Any) (keeps_createSink (fun _ _ => trivial) _ _) fun _ _ => Tri.bind (Q := Any) ?_ fun _ _ => Tri.pure trivial
    refine call_tri fun s y v h hr => ?_
    have ho : rootsNameSink s.sys (.makeGroup star none (some "console".toList) (some level)) := Or.inr rfl
    rcases h with h | h
    · exact .call hr ho h
    · exact .failed hr ho h
  | yaml src => exact keeps_runOn W F src _
  | yamlAfter p src ih =>
    unfold applyOn
    exact Tri.bind ih fun r _ => keeps_runOn W F src r

theorem warnNowhere_some {s : Sys} (hs : AllHaveSink s) : ∀ (es : List (Text × Nat)) (r : Result), (∀ e ∈ es, e.2 < s.ngroups) →
    ∃ r', warnNowhere s es r = some r' := by
  intro es
  induction es with
  | nil => intro r _; exact ⟨r, rfl⟩
  | cons e es ih =>
    intro r h
    have ih := fun r => ih r fun e' he => h e' (List.mem_cons_of_mem _ he)
    obtain ⟨n, g⟩ := e
    unfold warnNowhere
    split
    · exact ih r
    · have h1 := hs.1 g (h (n, g) List.mem_cons_self)
      cases hk : (s.grp g).sink with
      | none => rw [hk] at h1; cases h1
      | some k =>
        simp only
        split
        · exact ih _
        · exact ih _

theorem groups_lt {s : Sys} (hw : WF s) : ∀ e ∈ s.groups, e.2 < s.ngroups := fun e he =>
  hw.gLt e.1 e.2 (Table.find_of_mem hw.gU he)

end Yaml
end Soralog
