import Verif.Proofs.Lifetime
import Verif.Props.Whole
/-!
# C85: nothing is destroyed while it is used, and in the end everything is
-/
namespace Soralog
namespace Lifetime

open Whole

variable {E : Whole.Env} {ok : State → Call → Prop}

theorem shape_of {s : State} {owed : Nat → List Msg} (h : History E ok s owed) : Shape s.st :=
  have hi := history_inv (sysOk_any ok) h
  ⟨hi.reach.wf, hi.reach.allEnd, hi.sinks⟩

/-- In every state of a program there is exactly one such memory: the objects owned by the system and by the program exist. -/
theorem counted_exists {s : State} {owed : Nat → List Msg} (h : History E ok s owed) {handles : List Obj} (hh : ∀ x ∈ handles, Exists s.st x) :
    ∃ living m, Counted (members s.st) (systemOwns s.st ++ handles) living m := by
  have hs := shape_of h
  classical
  let all : List Obj := (List.range s.st.sys.ngroups).map .group ++ (List.range s.st.sys.nloggers).map .logger ++ (List.range s.st.sys.nsinks).map .sink
  have hall : ∀ x, Exists s.st x → x ∈ all := by
    intro x hx
    cases x with
    | group g => exact List.mem_append.2 (.inl (List.mem_append.2 (.inl (List.mem_map_of_mem (List.mem_range.2 hx)))))
    | logger i => exact List.mem_append.2 (.inl (List.mem_append.2 (.inr (List.mem_map_of_mem (List.mem_range.2 hx)))))
    | sink k => exact List.mem_append.2 (.inr (List.mem_map_of_mem (List.mem_range.2 hx)))
  have hnd : ∀ {f : Nat → Obj} (n : Nat), (∀ a b, f a = f b → a = b) → ((List.range n).map f).Nodup := by
    intro f n hf
    refine List.Pairwise.map f (fun a b hab he => hab (hf a b he)) List.nodup_range
  refine ⟨all.filter fun x => Owned (members s.st) (systemOwns s.st ++ handles) x, ⟨fun x => _, [], false⟩, ⟨?_, fun x => ?_, fun x => rfl, ⟨rfl, rfl⟩⟩⟩
  · refine List.Pairwise.filter _ (List.nodup_append.2 ⟨List.nodup_append.2 ⟨hnd _ (fun a b h => by cases h; rfl), hnd _ (fun a b h => by cases h; rfl), ?_⟩,
      hnd _ (fun a b h => by cases h; rfl), ?_⟩)
    · intro a ha b hb he
      obtain ⟨_, _, rfl⟩ := List.mem_map.1 ha
      obtain ⟨_, _, rfl⟩ := List.mem_map.1 hb
      cases he
    · intro a ha b hb he
      obtain ⟨_, _, rfl⟩ := List.mem_map.1 hb
      rcases List.mem_append.1 ha with ha | ha <;> (obtain ⟨_, _, rfl⟩ := List.mem_map.1 ha; cases he)
  · rw [List.mem_filter]
    simp only [decide_eq_true_eq]
    refine ⟨fun h => h.2, fun h => ⟨hall x (owned_exist hs (fun y hy => ?_) h), h⟩⟩
    rcases List.mem_append.1 hy with hy | hy
    · exact system_exist hs y hy
    · exact hh y hy

theorem living_exist {s : State} {owed : Nat → List Msg} (h : History E ok s owed) {handles living : List Obj} {m : Mem}
    (hh : ∀ x ∈ handles, Exists s.st x) (hc : Counted (members s.st) (systemOwns s.st ++ handles) living m) {x : Obj} (hx : x ∈ living) :
    Exists s.st x :=
  owned_exist (shape_of h) (fun y hy => by
    rcases List.mem_append.1 hy with hy | hy
    · exact system_exist (shape_of h) y hy
    · exact hh y hy) ((hc.owned x).1 hx)

/-- **C85**, exactly.  In any state of a program whose pointers are those of the logging system and its own `handles`, let some of them go, the
others stay.  Then: no object is released twice; every object is destroyed at most once, and only when no living object and no remaining
pointer holds it; and the objects that are destroyed are exactly those that neither a remaining pointer leads to nor a group that is its
own parent. -/
theorem C85_destroyed_exactly {s : State} {owed : Nat → List Msg} (h : History E ok s owed) {handles living gone kept : List Obj} {m : Mem}
    (hh : ∀ x ∈ handles, Exists s.st x) (hc : Counted (members s.st) (systemOwns s.st ++ handles) living m)
    (hp : (systemOwns s.st ++ handles).Perm (gone ++ kept)) {n : Nat} (hn : gone.length + (living.flatMap (members s.st)).length ≤ n) :
    ∃ m', release (members s.st) n gone m = some m' ∧ m'.bad = false ∧ m'.destroyed.Nodup ∧
      (∀ a x b, m'.destroyed = a ++ x :: b → x ∉ kept ∧ ∀ y ∈ living, Holds s.st y x → y ∈ a) ∧
      ∀ x, x ∈ m'.destroyed ↔ x ∈ living ∧ (∀ r ∈ kept, ¬ Leads s.st r x) ∧ ∀ y ∈ living, OwnParent s.st y → ¬ Leads s.st y x := by
  have hs := shape_of h
  have hex : ∀ x ∈ living, Exists s.st x := fun x hx => living_exist h hh hc hx
  obtain ⟨m', h1, h2, h3, h4, h5⟩ := release_spec hc hp (rank s.st) _ (fun x hx => rank_le hs (hex x hx))
    (fun x hx y hy hne => rank_lt hs (hex x hx) hy hne) hn
  refine ⟨m', h1, h2, h3, fun a x b he => ⟨(h4 a x b he).1, fun y hy hx => (h4 a x b he).2 y hy (mem_holds.2 hx)⟩, fun x => ?_⟩
  rw [h5 x]
  simp only [self_member hs, owned_leads, not_exists, not_and, List.mem_singleton, forall_eq]

/-- **C85**, part.  As long as no group is its own parent: once the logging system and all pointers of the program are gone, every object that
existed has been destroyed, exactly once — in particular the destructor of every sink has run, which writes what was still queued (C26).
Missing: groups that are their own parent, see below. -/
theorem C85_everything_goes_partial {s : State} {owed : Nat → List Msg} (h0 : History E ok s owed) (hs : ∀ g, g < s.st.sys.ngroups → (s.st.sys.grp g).parent ≠ some g)
    {handles living : List Obj} {m : Mem} (hh : ∀ x ∈ handles, Exists s.st x)
    (hc : Counted (members s.st) (systemOwns s.st ++ handles) living m) {n : Nat}
    (hn : (systemOwns s.st ++ handles).length + (living.flatMap (members s.st)).length ≤ n) :
    ∃ m', release (members s.st) n (systemOwns s.st ++ handles) m = some m' ∧ m'.bad = false ∧ m'.destroyed.Perm living := by
  obtain ⟨m', h1, h2, h3, _, h5⟩ := C85_destroyed_exactly (kept := []) h0 hh hc (by simp) hn
  refine ⟨m', h1, h2, (List.perm_ext_iff_of_nodup h3 hc.nodup).2 fun x => ?_⟩
  rw [h5 x]
  refine ⟨fun h => h.1, fun h => ⟨h, (fun r hr => (by cases hr)), fun y hl hy => ?_⟩⟩
  · obtain ⟨g, rfl, hg⟩ := hy
    exact absurd hg (hs g (living_exist h0 hh hc hl))

/-- **C85**, in use.  While the program holds a logger, whatever else goes — the logging system itself, other loggers, pointers to groups and
sinks — the logger and everything it leads to — its group and that
group's ancestors with their sinks, its sink and all sinks its messages reach — is not destroyed. -/
theorem C85_logger_keeps {s : State} {owed : Nat → List Msg} (h : History E ok s owed) {handles living gone kept : List Obj} {m : Mem}
    (hh : ∀ x ∈ handles, Exists s.st x) (hc : Counted (members s.st) (systemOwns s.st ++ handles) living m)
    (hp : (systemOwns s.st ++ handles).Perm (gone ++ kept)) {n : Nat} (hn : gone.length + (living.flatMap (members s.st)).length ≤ n)
    {i : Nat} (hi : .logger i ∈ kept) :
    ∃ m', release (members s.st) n gone m = some m' ∧ ∀ x, Leads s.st (.logger i) x → x ∉ m'.destroyed := by
  obtain ⟨m', h1, _, _, _, h5⟩ := C85_destroyed_exactly h hh hc hp hn
  exact ⟨m', h1, fun x hl hx => ((h5 x).1 hx).2.1 _ hi hl⟩

/-- **C85**, in use.  The same for the logging system: while it exists, no sink and no group it knows by name is destroyed, nor anything they
lead to. -/
theorem C85_system_keeps {s : State} {owed : Nat → List Msg} (h : History E ok s owed) {handles living gone kept : List Obj} {m : Mem}
    (hh : ∀ x ∈ handles, Exists s.st x) (hc : Counted (members s.st) (systemOwns s.st ++ handles) living m)
    (hp : handles.Perm (gone ++ kept)) {n : Nat} (hn : gone.length + (living.flatMap (members s.st)).length ≤ n) :
    ∃ m', release (members s.st) n gone m = some m' ∧
      (∀ name g x, s.st.sys.groups.find name = some g → Leads s.st (.group g) x → x ∉ m'.destroyed) ∧
      ∀ name k x, s.st.sys.sinks.find name = some k → Leads s.st (.sink k) x → x ∉ m'.destroyed := by
  have hp' : (systemOwns s.st ++ handles).Perm (gone ++ (systemOwns s.st ++ kept)) :=
    (hp.append_left _).trans (by
      rw [← List.append_assoc, ← List.append_assoc]
      exact List.perm_append_comm.append_right kept)
  obtain ⟨m', h1, _, _, _, h5⟩ := C85_destroyed_exactly h hh hc hp' hn
  have hw := (shape_of h).wf
  have hg : ∀ name g, s.st.sys.groups.find name = some g → Obj.group g ∈ systemOwns s.st := fun name g hf => by
    obtain ⟨e, he, h2⟩ := List.mem_map.1 ((System.Table.mem_values hw.gU).2 ⟨name, hf⟩)
    exact List.mem_append.2 (.inl (List.mem_map.2 ⟨e, he, by rw [h2]⟩))
  have hk : ∀ name g, s.st.sys.sinks.find name = some g → Obj.sink g ∈ systemOwns s.st := fun name g hf => by
    obtain ⟨e, he, h2⟩ := List.mem_map.1 ((System.Table.mem_values hw.kU).2 ⟨name, hf⟩)
    exact List.mem_append.2 (.inr (List.mem_map.2 ⟨e, he, by rw [h2]⟩))
  exact ⟨m', h1, fun name g x hf hl hx => ((h5 x).1 hx).2.1 _ (List.mem_append.2 (.inl (hg name g hf))) hl,
    fun name k x hf hl hx => ((h5 x).1 hx).2.1 _ (List.mem_append.2 (.inl (hk name k hf))) hl⟩

/-! ### a program -/

/-- the first program of C74 and its two loggers: the system goes, then one logger, then the other -/
def goodHandles : List Obj := [.logger 0, .logger 1]

theorem goodHandles_exist : ∀ x ∈ goodHandles, Exists good.1.st x := by
  intro x hx
  have : good.1.st.sys.nloggers = 2 := by decide +kernel
  rcases List.mem_cons.1 hx with rfl | hx
  · show 0 < good.1.st.sys.nloggers; omega
  · cases List.mem_singleton.1 hx
    show 1 < good.1.st.sys.nloggers; omega

def goodLiving : List Obj := [.group 0, .sink 0, .sink 1, .sink 2, .logger 0, .logger 1]

def goodMem : Mem := ⟨fun x => (systemOwns good.1.st ++ goodHandles ++ goodLiving.flatMap (members good.1.st)).count x, [], false⟩

/-- everything at once: the loggers go before the group they hold, this one before its multisink (2), and that before the console (1) below it -/
example : (release (members good.1.st) 30 (systemOwns good.1.st ++ goodHandles) goodMem).map (fun m => (m.destroyed, m.bad)) =
    some ([.sink 0, .logger 0, .logger 1, .group 0, .sink 2, .sink 1], false) := by decide +kernel

/-- the system and one logger go, the other logger keeps its group, its multisink and the console below it -/
example : (release (members good.1.st) 30 (systemOwns good.1.st ++ [.logger 0]) goodMem).map (fun m => (m.destroyed, m.bad)) =
    some ([.sink 0, .logger 0], false) := by decide +kernel

example : ∃ living m, Counted (members good.1.st) (systemOwns good.1.st ++ goodHandles) living m := counted_exists good_history goodHandles_exist

example : good.1.st.sys.ngroups = 1 ∧ ∀ g, g < 1 → (good.1.st.sys.grp g).parent ≠ some g := by
  constructor <;> decide +kernel

/-- the program also calls `setParentOfGroup("a", "a")` -/
def selfishRun : Option (State × (Nat → List Msg)) :=
  run demoEnv 20 (goodProgram ++ [.system (.setParentOfGroup ['a'] ['a'])]) (new demoEnv false id false) fun _ => []

theorem selfishRun_some : selfishRun.isSome = true := by decide +kernel

def selfishState : State × (Nat → List Msg) := selfishRun.get selfishRun_some

theorem selfish_history : History demoEnv Careful selfishState.1 selfishState.2 :=
  run_history (by decide) (.new false id (fun _ => .refl _) false) (Option.some_get selfishRun_some).symm

attribute [irreducible] selfishState

/-- **C85 is false**: after `setParentOfGroup("a", "a")` the group "a" holds itself.  The logging system and all other pointers go, and
neither the group nor its sink nor the console below that are ever destroyed: the destructor of the sink, which would write what is still
queued and stop its thread, does not run. -/
theorem C85_refuted : ∃ s owed, History demoEnv Careful s owed ∧ ∃ name k, s.st.sys.sinks.find name = some k ∧
    (∃ c, (s.st.specs k).cfg = some c) ∧ ∀ living m n, Counted (members s.st) (systemOwns s.st ++ goodHandles) living m →
      (systemOwns s.st ++ goodHandles).length + (living.flatMap (members s.st)).length ≤ n →
      ∃ m', release (members s.st) n (systemOwns s.st ++ goodHandles) m = some m' ∧ .sink k ∈ living ∧ .sink k ∉ m'.destroyed := by
  refine ⟨selfishState.1, selfishState.2, selfish_history, "con".toList, 1, by decide +kernel, Option.isSome_iff_exists.1 (by decide +kernel), fun living m n hc hn => ?_⟩
  have hl : selfishState.1.st.sys.nloggers = 2 := by decide +kernel
  have hh : ∀ x ∈ goodHandles, Exists selfishState.1.st x := by
    intro x hx
    rcases List.mem_cons.1 hx with rfl | hx
    · show 0 < selfishState.1.st.sys.nloggers; omega
    · cases List.mem_singleton.1 hx
      show 1 < selfishState.1.st.sys.nloggers; omega
  obtain ⟨m', h1, _, _, _, h5⟩ := C85_destroyed_exactly (kept := []) selfish_history hh hc (by simp) hn
  have hp : (selfishState.1.st.sys.grp 0).parent = some 0 := by decide +kernel
  have hs : (selfishState.1.st.sys.grp 0).sink = some 2 := by decide +kernel
  have hm : selfishState.1.st.specs 2 = .multi .trace [1] := by decide +kernel
  have ho : Leads selfishState.1.st (.group 0) (.sink 1) := .next (.next .self (.groupSink hs)) (.below hm List.mem_cons_self)
  have hg : Obj.group 0 ∈ systemOwns selfishState.1.st := by decide +kernel
  have hgl : Obj.group 0 ∈ living := (hc.owned _).2 (.root (List.mem_append.2 (.inl hg)))
  exact ⟨m', h1, (hc.owned _).2 (.trans ((hc.owned _).1 hgl) (owned_leads.2 ⟨_, List.mem_cons_self, ho⟩)), fun hx => ((h5 _).1 hx).2.2 _ hgl ⟨0, rfl, hp⟩ ho⟩

end Lifetime
end Soralog
