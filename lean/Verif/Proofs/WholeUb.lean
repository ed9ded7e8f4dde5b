import Verif.Proofs.Whole
/-!
# A program without null sinks, empty multisinks and too small buffers does nothing undefined
-/
namespace Soralog
namespace Whole

open Spec Sink

variable {E : Env} {sysOk : System.Sys → System.Op → Prop} {ok : State → Call → Prop}

theorem pushCalls_cleans (m : Msg) (is : List Nat) : ∀ c ∈ pushCalls m is, Cleans c.2 := by
  intro c hc
  obtain ⟨i, _, rfl⟩ := List.mem_map.1 hc
  exact cleans_push m

theorem asyncCalls_cleans (ss : List Snk) : ∀ c ∈ asyncCalls ss, Cleans c.2 := by
  induction ss with
  | nil => intro c hc; cases hc
  | cons s ss ih =>
    cases s with
    | leaf i =>
      intro c hc
      rcases List.mem_cons.1 hc with rfl | hc
      · exact cleans_async
      · exact ih c hc
    | multi lv subs => exact ih

mutual
theorem flushCalls_cleans : (s : Snk) → ∀ c ∈ flushCalls s, Cleans c.2
  | .leaf i => by
    intro c hc
    rw [flushCalls] at hc
    rw [List.mem_singleton.1 hc]; exact cleans_flush
  | .multi lv subs => by
    intro c hc
    rw [flushCalls] at hc
    rcases List.mem_append.1 hc with hc | hc
    · exact asyncCalls_cleans subs c hc
    · exact flushCallsAll_cleans subs c hc
theorem flushCallsAll_cleans : (ss : List Snk) → ∀ c ∈ flushCallsAll ss, Cleans c.2
  | [] => by intro c hc; rw [flushCallsAll] at hc; cases hc
  | s :: ss => by
    intro c hc
    rw [flushCallsAll] at hc
    rcases List.mem_append.1 hc with hc | hc
    · exact flushCalls_cleans s c hc
    · exact flushCallsAll_cleans ss c hc
end

/-- all sinks have large enough buffers -/
def RoomyAll (specs : Nat → Yaml.Spec) : Prop := ∀ k c, (specs k).cfg = some c → Roomy c

theorem roomy_cfgOf {specs : Nat → Yaml.Spec} (h : RoomyAll specs) (k : Nat) : Roomy (cfgOf (specs k)) := by
  unfold cfgOf
  cases hc : (specs k).cfg with
  | none => exact trivial
  | some c => exact h k c hc

/-- all sinks are clean -/
def CleanHeap (h : Heap) : Prop := ∀ k, Clean (h.leaf k)

theorem clean_applyAll {specs : Nat → Yaml.Spec} {owed : Nat → List Msg} {h : Heap} (hi : HeapInv E specs owed h)
    (hv : ∀ k, ValidSpec (specs k)) (hr : RoomyAll specs) (he : ∀ k, SaneEnv (E.world k)) (hc : CleanHeap h)
    {cs : List (Nat × (Leaf → Leaf))} (hg : ∀ c ∈ cs, Cleans c.2) : CleanHeap (applyAll cs h) := by
  intro k
  rw [applyAll_leaf]
  have hk := hi k
  exact (onLeaf_cleans cs hg k ((hi.ok hv).valid k).1 (by rw [hk.cfg]; exact roomy_cfgOf hr k) (by rw [hk.w]; exact he k) (hc k)).1

theorem clean_log {specs : Nat → Yaml.Spec} {owed : Nat → List Msg} {h h' : Heap} (hi : HeapInv E specs owed h)
    (hv : ∀ k, ValidSpec (specs k)) (hr : RoomyAll specs) (he : ∀ k, SaneEnv (E.world k)) (hc : CleanHeap h)
    {t : Snk} (hf : Full t) {F : Nat} (hF : 2 ≤ F) {name : Text} {level v : Level} {format : Text}
    {fmt : FmtResult} (hl : Sink.Logger.log F ⟨name, level, t⟩ v format fmt h = some h') : CleanHeap h' := by
  obtain ⟨n, rfl⟩ : ∃ n, F = n + 2 := ⟨F - 2, by omega⟩
  rw [log_eq n ⟨name, level, t⟩ hf h (hi.ok hv) v format fmt] at hl
  cases hl
  split
  · rw [← applyAll_append]
    refine clean_applyAll hi hv hr he hc fun c hm => ?_
    rcases List.mem_append.1 hm with hm | hm
    · exact pushCalls_cleans _ _ c hm
    · exact flushCalls_cleans _ c hm
  · exact hc

theorem clean_warnAll {specs : Nat → Yaml.Spec} (hv : ∀ k, ValidSpec (specs k)) (hf : ∀ k, Full (tree specs k)) {F : Nat} (hF : 2 ≤ F)
    (hr : RoomyAll specs) (he : ∀ k, SaneEnv (E.world k)) :
    ∀ (ws : List System.Warning) {owed : Nat → List Msg} {h h' : Heap}, HeapInv E specs owed h → CleanHeap h →
      warnAll specs F ws h = some h' → CleanHeap h' := by
  intro ws
  induction ws with
  | nil =>
    intro owed h h' hi hc he
    cases he
    exact hc
  | cons w ws ih =>
    intro owed h h' hi hc hw
    rw [warnAll] at hw
    cases hl : Sink.Logger.log F ⟨"Soralog".toList, .warn, tree specs (warningSink w)⟩ .warn (warningFormat w) (.ok (warningText w)) h with
    | none => rw [hl] at hw; cases hw
    | some h1 =>
      rw [hl] at hw
      exact ih (log_inv hi hv (hf (warningSink w)) hF hl).2 (clean_log hi hv hr he hc (hf _) hF hl) hw

/-- a log call on sinks that are not empty ends -/
theorem log_ends {specs : Nat → Yaml.Spec} {owed : Nat → List Msg} {h : Heap} (hi : HeapInv E specs owed h)
    (hv : ∀ k, ValidSpec (specs k)) {t : Snk} (hf : Full t) {F : Nat} (hF : 2 ≤ F) (name : Text) (level v : Level) (format : Text)
    (fmt : FmtResult) : ∃ h', Sink.Logger.log F ⟨name, level, t⟩ v format fmt h = some h' := by
  obtain ⟨n, rfl⟩ : ∃ n, F = n + 2 := ⟨F - 2, by omega⟩
  exact ⟨_, log_eq n ⟨name, level, t⟩ hf h (hi.ok hv) v format fmt⟩

theorem warnAll_ends {specs : Nat → Yaml.Spec} (hv : ∀ k, ValidSpec (specs k)) (hf : ∀ k, Full (tree specs k)) {F : Nat} (hF : 2 ≤ F) :
    ∀ (ws : List System.Warning) {owed : Nat → List Msg} {h : Heap}, HeapInv E specs owed h → ∃ h', warnAll specs F ws h = some h' := by
  intro ws
  induction ws with
  | nil => intro owed h hi; exact ⟨h, rfl⟩
  | cons w ws ih =>
    intro owed h hi
    obtain ⟨h1, hl⟩ := log_ends hi hv (hf (warningSink w)) hF "Soralog".toList .warn .warn (warningFormat w) (.ok (warningText w))
    obtain ⟨h2, h3⟩ := ih (log_inv hi hv (hf (warningSink w)) hF hl).2
    exact ⟨h2, by rw [warnAll, hl]; exact h3⟩

theorem clean_new (c : Cfg) (w : Sink.World) (o : Bool) : Clean (Leaf.new c w o) :=
  ⟨rfl, Nat.zero_le _, fun e he => (by cases he)⟩

theorem clean_leafFor (E : Env) (k : Nat) (spec : Yaml.Spec) : Clean (leafFor E k spec) := by
  rw [leafFor_eq]; exact clean_new _ _ _

theorem clean_construct {n : Nat} {st : Yaml.St} {h : Heap} (hc : CleanHeap h) : CleanHeap (construct E n st h) := by
  intro k
  show Clean (if n ≤ k ∧ k < st.sys.nsinks then leafFor E k (st.specs k) else h.leaf k)
  split
  · exact clean_leafFor E k _
  · exact hc k

theorem roomy_back {s s' : State} (hs : ∀ k, k < s.st.sys.nsinks → s'.st.specs k = s.st.specs k)
    (hb : ∀ k, s.st.sys.nsinks ≤ k → s.st.specs k = .nowhere) (h : RoomyAll s'.st.specs) : RoomyAll s.st.specs := by
  intro k c hc
  by_cases hk : k < s.st.sys.nsinks
  · exact h k c (by rw [hs k hk]; exact hc)
  · rw [hb k (by omega)] at hc; cases hc

/-- the calls keep the parameters of existing sinks -/
theorem step_specs (hs : SysOk sysOk ok) {s s' : State} {owed : Nat → List Msg} {c : Call} {F : Nat} (h : Inv E sysOk s owed)
    (hp : Proper s c) (hc : step E F s c = .ok s' ∨ step E F s c = .throw s') :
    ∀ k, k < s.st.sys.nsinks → s'.st.specs k = s.st.specs k := by
  cases c with
  | configure what cf =>
    simp only [step] at hc
    cases he : Yaml.configure E.W F what cf s.st with
    | ub => rw [he] at hc; rcases hc with hc | hc <;> cases hc
    | diverge => rw [he] at hc; rcases hc with hc | hc <;> cases hc
    | throw y =>
      rw [he] at hc
      have := configure_throw he
      subst this
      rcases hc with hc | hc <;> cases hc
      exact fun _ _ => rfl
    | ok r y =>
      rw [he] at hc
      rcases hc with hc | hc <;> cases hc
      exact (Yaml.sinksGrow_configure he h.sinks).2.2
  | makeSink name spec =>
    simp only [step] at hc
    rcases Yaml.createSink_cases E.W name spec s.st with he | ⟨_, b, he⟩
    · rw [he] at hc
      rcases hc with hc | hc <;> cases hc
      exact fun _ _ => rfl
    · rw [he] at hc
      rcases hc with hc | hc <;> cases hc
      exact (Yaml.sinksGrow_created (fun lv subs hm => hp.2 lv subs hm) h.sinks).2.2
  | system op =>
    simp only [step] at hc
    revert hc
    repeat' split
    all_goals (intro hc; rcases hc with hc | hc <;> cases hc)
    all_goals exact fun _ _ => rfl
  | log i v format fmt =>
    simp only [step, logCall] at hc
    revert hc
    repeat' split
    all_goals (intro hc; rcases hc with hc | hc <;> cases hc)
    all_goals exact fun _ _ => rfl
  | flush k =>
    simp only [step] at hc
    split at hc <;> (rcases hc with hc | hc <;> cases hc) <;> exact fun _ _ => rfl
  | rotate k =>
    simp only [step] at hc
    split at hc <;> (rcases hc with hc | hc <;> cases hc) <;> exact fun _ _ => rfl

theorem clean_step (hs : SysOk sysOk ok) {s s' : State} {owed : Nat → List Msg} {c : Call} {F : Nat} (h : Inv E sysOk s owed)
    (hF : 2 ≤ F) (he : ∀ k, SaneEnv (E.world k)) (hn : NoEmpty s) (hr : RoomyAll s.st.specs) (hcl : CleanHeap s.heap)
    (hok : ok s c) (hc : step E F s c = .ok s' ∨ step E F s c = .throw s') : CleanHeap s'.heap := by
  have hi := h.leaf hn
  have hfull := tree_full h.sinks.good hn
  cases c with
  | configure what cf =>
    simp only [step] at hc
    revert hc
    split
    all_goals (intro hc; rcases hc with hc | hc <;> cases hc)
    all_goals exact clean_construct hcl
  | makeSink name spec =>
    simp only [step] at hc
    revert hc
    split
    all_goals (intro hc; rcases hc with hc | hc <;> cases hc)
    all_goals exact clean_construct hcl
  | system op =>
    simp only [step] at hc
    cases hst : System.step F s.st.sys op with
    | ub => rw [hst] at hc; rcases hc with hc | hc <;> cases hc
    | diverge => rw [hst] at hc; rcases hc with hc | hc <;> cases hc
    | throw y =>
      rw [hst] at hc
      rcases hc with hc | hc <;> cases hc
      exact clean_construct hcl
    | ret v y =>
      rw [hst] at hc
      cases hw : warnAll s.st.specs F (y.warned.drop s.st.sys.warned.length) (construct E s.st.sys.nsinks { s.st with sys := y } s.heap) with
      | none => simp only [hw] at hc; rcases hc with hc | hc <;> cases hc
      | some hp' =>
        simp only [hw] at hc
        rcases hc with hc | hc <;> cases hc
        have hry : System.ReachBy sysOk y := .call h.reach (hs.op s op hok) hst
        have hn' := trans_nsinks (System.step_all h.reach.wf (.inl hst))
        have hci := (construct_inv (st' := { s.st with sys := y }) hi (fun _ _ => rfl) h.sinks.beyond
          (fun k hk => h.sinks.beyond k (Nat.le_trans hn' hk)) hn' h.none).2
        exact clean_warnAll h.valid hfull hF hr he _ hci (clean_construct hcl) hw
  | log i v format fmt =>
    simp only [step, logCall] at hc
    split at hc
    · cases hk : (s.st.sys.lgr i).sink with
      | none =>
        rw [hk] at hc
        simp only at hc
        split at hc <;> (rcases hc with hc | hc <;> cases hc)
        exact hcl
      | some j =>
        rw [hk] at hc
        simp only at hc
        cases hlog : Sink.Logger.log F ⟨(s.st.sys.lgr i).name, (s.st.sys.lgr i).level, tree s.st.specs j⟩ v format fmt s.heap with
        | none => rw [hlog] at hc; rcases hc with hc | hc <;> cases hc
        | some h2 =>
          rw [hlog] at hc
          rcases hc with hc | hc <;> cases hc
          exact clean_log hi h.valid hr he hcl (hfull j) hF hlog
    · rcases hc with hc | hc <;> cases hc
      exact hcl
  | flush k =>
    simp only [step] at hc
    split at hc
    · rcases hc with hc | hc <;> cases hc
      show CleanHeap ((tree s.st.specs k).flush s.heap)
      rw [flush_eq]
      exact clean_applyAll hi h.valid hr he hcl (flushCalls_cleans _)
    · rcases hc with hc | hc <;> cases hc
      exact hcl
  | rotate k =>
    simp only [step] at hc
    split at hc
    · rcases hc with hc | hc <;> cases hc
      show CleanHeap ((tree s.st.specs k).rotate s.heap)
      rw [rotate_eq]
      refine clean_applyAll hi h.valid hr he hcl fun c hm => ?_
      obtain ⟨i, _, rfl⟩ := List.mem_map.1 hm
      exact cleans_rotate
    · rcases hc with hc | hc <;> cases hc
      exact hcl

theorem history_clean (hs : SysOk sysOk ok) (he : ∀ k, SaneEnv (E.world k)) {s : State} {owed : Nat → List Msg} (h : History E ok s owed) :
    NoEmpty s → RoomyAll s.st.specs → CleanHeap s.heap := by
  induction h with
  | new debug ord ho b => exact fun _ _ k => clean_leafFor E k .nowhere
  | call h hp hok hF hc ih =>
    intro hn hr
    have hi := history_inv hs h
    have hsp := step_specs hs hi hp hc
    have hn' := noEmpty_back hsp hi.sinks.beyond hn
    have hr' := roomy_back hsp hi.sinks.beyond hr
    exact clean_step hs hi hF he hn' hr' (ih hn' hr') hok hc

/-! ### the next call -/

/-- as soon as there is a group there is a fallback group -/
theorem reach_fallback {s : System.Sys} (h : System.ReachBy sysOk s) : 0 < s.ngroups → (s.groups.find System.star).isSome := by
  refine h.invariant (P := fun s => 0 < s.ngroups → (s.groups.find System.star).isSome) (fun _ _ hc => absurd hc (Nat.lt_irrefl 0)) ?_
  intro s s' hw hi ht
  cases ht with
  | group name parent sink level p k hp hk hl hA =>
    intro _
    by_cases hn : System.star = name
    · subst hn
      rw [System.Table.find_put_self]; rfl
    · rw [System.Table.find_put_ne _ _ hn]
      cases hf : s.groups.find System.star with
      | none => simp [System.Table.find_put_self]
      | some g => simp [hf]
  | fallback name g hg hA => intro _; rw [System.Table.find_put_self]; rfl
  | level => rename_i h; rw [h.rest]; exact hi
  | sinkOf => rename_i h; rw [h.rest]; exact hi
  | parentOf => rename_i h; rw [h.rest]; exact hi
  | _ => exact hi

theorem warnThrough_some {s : System.Sys} {f : Nat} (h : (s.grp f).sink.isSome = true) (w : Nat → System.Warning) :
    ∃ y, System.warnThrough f w s = some y ∧ y.grp = s.grp ∧ y.groups = s.groups := by
  obtain ⟨k, hk⟩ := Option.isSome_iff_exists.1 h
  have hl : (System.Logger.new s.grp ['S', 'o', 'r', 'a', 'l', 'o', 'g'] f).sink = some k := by
    unfold System.Logger.new
    simp [System.Logger.setGroup, System.Logger.setSinkFromGroup, System.Logger.setLevelFromGroup, hk]
  unfold System.warnThrough
  simp only [hl]
  split
  · exact ⟨_, rfl, rfl, rfl⟩
  · exact ⟨_, rfl, rfl, rfl⟩

theorem getLogger_noUb {s : System.Sys} {name group : Text} {sink : Option Text} {level : Option Level}
    (hw : System.WF s) (hk : System.AllHaveSink s) (hf : (s.groups.find System.star).isSome) :
    System.getLogger name group sink level s ≠ .ub := by
  obtain ⟨f, hf⟩ := Option.isSome_iff_exists.1 hf
  have hfk : (s.grp f).sink.isSome = true := hk.1 f (hw.gLt _ _ hf)
  unfold System.getLogger
  split
  · intro h; cases h
  · split
    · intro h; cases h
    · split
      · intro h; cases h
      · by_cases hg : group = System.star
        · rw [if_pos hg]
          obtain ⟨y, h1, h2, h3⟩ := warnThrough_some hfk fun k => .deprecated k
          have : ((System.getFallbackGroup s).bind fun f => System.warnThrough f (fun k => .deprecated k) s) = some y := by
            unfold System.getFallbackGroup; rw [hf]; exact h1
          simp only [this]
          have : System.getGroup group y = some f := by unfold System.getGroup; rw [h3, hg]; exact hf
          simp only [this]
          intro h; cases h
        · rw [if_neg hg]
          simp only
          cases hgg : System.getGroup group s with
          | some g => simp only; intro h; cases h
          | none =>
            simp only
            obtain ⟨y, h1, h2, h3⟩ := warnThrough_some hfk fun k => .unknownGroup k group name (s.grp f).name
            have : ((System.getFallbackGroup s).bind fun f =>
                (System.warnThrough f (fun k => .unknownGroup k group name (s.grp f).name) s).map fun s => (f, s)) = some (f, y) := by
              unfold System.getFallbackGroup; rw [hf]
              simp only [Option.bind]
              rw [h1]; rfl
            simp only [this]
            intro h; cases h

theorem sysStep_noUb {F : Nat} {s : System.Sys} {op : System.Op} (hw : System.WF s) (hk : System.AllHaveSink s)
    (hf : (∃ n g k l, op = .getLogger n g k l) → (s.groups.find System.star).isSome) : System.step F s op ≠ .ub := by
  have hof : ∀ r : Option System.Sys, (System.ofOption r).map System.Val.bool ≠ .ub := by intro r; cases r <;> intro h <;> cases h
  have hon : ∀ n b u, (System.onLogger n b u s).map System.Val.bool ≠ .ub := by
    intro n b u
    unfold System.onLogger
    repeat' split
    all_goals intro h; cases h
  cases op with
  | getLogger n g k l =>
    have := getLogger_noUb (name := n) (group := g) (sink := k) (level := l) hw hk (hf ⟨_, _, _, _, rfl⟩)
    simp only [System.step]
    cases hg : System.getLogger n g k l s with
    | ub => exact absurd hg this
    | _ => intro h; cases h
  | onHandle i m => simp only [System.step]; split <;> intro h <;> cases h
  | drop i => intro h; cases h
  | makeSink n => intro h; cases h
  | makeGroup n p k l =>
    simp only [System.step, System.makeGroup]
    repeat' split
    all_goals intro h; cases h
  | _ =>
    simp only [System.step, System.setFallbackGroup, System.setParentOfGroup, System.unsetParentOfGroup, System.setSinkOfGroup,
      System.resetSinkOfGroup, System.setLevelOfGroup, System.resetLevelOfGroup, System.setGroupOfLogger, System.setSinkOfLogger,
      System.resetSinkOfLogger, System.setLevelOfLogger, System.resetLevelOfLogger]
    repeat' split
    all_goals first | exact hof _ | exact hon _ _ _ | (intro h; cases h)

end Whole
end Soralog
