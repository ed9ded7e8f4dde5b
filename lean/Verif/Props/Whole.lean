import Verif.Proofs.WholeUb
/-!
# C73, C74: the whole program
-/
namespace Soralog
namespace Whole

open Spec Sink

variable {E : Env} {ok : State → Call → Prop}

theorem sysOk_any (ok : State → Call → Prop) : SysOk (fun _ _ => True) ok :=
  ⟨fun _ _ _ => trivial, fun _ _ => trivial, fun _ _ => trivial, fun _ _ _ => trivial⟩

/-! ## C74 -/

/-- **C74**, accepted.  Whatever a program has done -- configured the system from a document or by calls, made sinks, groups and loggers,
changed levels, sinks, parents and groups, logged, flushed, rotated -- every sink has accepted exactly the messages owed to it, in the order
of the calls, and nothing is left in its queue. -/
theorem C74_accepted {s : State} {owed : Nat → List Msg} (h : History E ok s owed) (hn : NoEmpty s) {k : Nat} {c : Cfg}
    (hc : (s.st.specs k).cfg = some c) :
    (s.heap.leaf k).accepted = eventsOf (E.world k).env c.ti c.maxLen 0 (owed k) ∧ (s.heap.leaf k).queue = [] := by
  have hi := (history_inv (sysOk_any ok) h).leaf hn k
  have hcfg : cfgOf (s.st.specs k) = c := by unfold cfgOf; rw [hc]; rfl
  exact ⟨by rw [hi.accepted, hcfg], hi.queue⟩

/-- **C74**, written.  A console, and a file that could be opened, have received exactly the records of these events. -/
theorem C74_written {s : State} {owed : Nat → List Msg} (h : History E ok s owed) (hn : NoEmpty s) {k : Nat} {c : Cfg}
    (hc : (s.st.specs k).cfg = some c) (hk : Stream c.kind) (ho : c.kind = .file → E.opened k = true) :
    (s.heap.leaf k).written.map (·.2) =
      (eventsOf (E.world k).env c.ti c.maxLen 0 (owed k)).map fun e => ((s.heap.leaf k).record e).out := by
  have hi := (history_inv (sysOk_any ok) h).leaf hn k
  have hcfg : cfgOf (s.st.specs k) = c := by unfold cfgOf; rw [hc]; rfl
  obtain ⟨done, h1, h2⟩ := hi.ok.split
  rw [hi.queue, List.append_nil] at h1
  rw [hi.cfg, hcfg] at h2
  rw [h2 hk, ← h1, (C74_accepted h hn hc).1]
  unfold opens
  rw [hcfg]
  cases hkind : c.kind with
  | file => exact ho hkind
  | _ => rfl

/-- What "through the sink" means in these statements: a multisink passes on to the sinks it was made of, which are older than itself and
in its order; every other sink stands for itself. -/
theorem C74_structure {s : State} {owed : Nat → List Msg} (h : History E ok s owed) (j : Nat) :
    (∀ lv subs, s.st.specs j = .multi lv subs → tree s.st.specs j = .multi lv (subs.map (tree s.st.specs)) ∧ ∀ i ∈ subs, i < j) ∧
    ((∀ lv subs, s.st.specs j ≠ .multi lv subs) → tree s.st.specs j = .leaf j) :=
  have hi := history_inv (sysOk_any ok) h
  ⟨fun lv subs hs => ⟨tree_multi hi.sinks.good hs, hi.sinks.good j lv subs hs⟩, tree_leaf⟩

theorem eventsOf_mem {env : Nat → Soralog.Env} {ti : ThreadInfo} {maxLen : Nat} {ms : List Msg} {n : Nat} {e : Event}
    (h : e ∈ eventsOf env ti maxLen n ms) : ∃ i m, e = mkEvent (env i) ti maxLen m := by
  induction ms generalizing n with
  | nil => cases h
  | cons m ms ih =>
    rcases List.mem_cons.1 h with h | h
    · exact ⟨n, m, h⟩
    · exact ih h

theorem record_line {l : Leaf} (hk : Stream l.cfg.kind) (hr : Roomy l.cfg) (he : SaneEnv l.w) (hlt : ∀ s, (l.w.lt s).Ok)
    (hsec : ∀ n, Spec.second (l.w.env n).now ≠ 0) (hcol : ∀ b, l.cfg.kind ≠ .console true b) (n : Nat) (m : Msg) :
    (l.record (mkEvent (l.w.env n) l.cfg.ti l.cfg.maxLen m)).out = lineOf l.w.lt l.cfg.ti (mkEvent (l.w.env n) l.cfg.ti l.cfg.maxLen m) := by
  have hb : ∀ {b ml : Nat}, 2 * ml ≤ b → Render.bufferSize b ml = b := by
    intro b ml h
    unfold Render.bufferSize
    split
    · omega
    · rfl
  have hline : ∀ bf, 321 ≤ l.cfg.maxBuffer → 2 * l.cfg.maxLen ≤ l.cfg.maxBuffer →
      (Render.fileRecord l.w.lt l.cfg.ti Render.Cache.init (Render.fresh l.cfg.maxBuffer) (mkEvent (l.w.env n) l.cfg.ti l.cfg.maxLen m)).1.out =
        lineOf l.w.lt l.cfg.ti (mkEvent (l.w.env n) l.cfg.ti l.cfg.maxLen m) ∧
      (Render.consoleRecord l.w.lt l.cfg.ti false bf Render.Cache.init (Render.fresh l.cfg.maxBuffer)
        (mkEvent (l.w.env n) l.cfg.ti l.cfg.maxLen m)).1.out = lineOf l.w.lt l.cfg.ti (mkEvent (l.w.env n) l.cfg.ti l.cfg.maxLen m) := by
    intro bf h1 h2
    have := Render.C10_layout l.w.lt hlt l.cfg.maxBuffer l.cfg.maxLen (.inl h1) l.cfg.ti bf (l.w.env n) m (he n).1 (he n).2 (hsec n)
    rw [hb h2] at this
    have ht : (mkEvent (l.w.env n) l.cfg.ti l.cfg.maxLen m).timestamp = (l.w.env n).now := by
      unfold mkEvent; split <;> rfl
    have hcolumn : ∀ e : Event, (match l.cfg.ti with | .none => ThreadColumn.absent | .name => .named e.threadName | .id => .numbered e.threadNumber) =
        Render.threadColumn l.cfg.ti e := by
      intro e; unfold Render.threadColumn; cases l.cfg.ti <;> rfl
    unfold lineOf Render.ownLine Render.stamp
    rw [ht]
    exact this
  unfold Leaf.record Leaf.staging
  unfold Roomy at hr
  cases hkind : l.cfg.kind with
  | console color bf =>
    rw [hkind] at hr
    cases color with
    | true => exact absurd hkind (hcol bf)
    | false => exact (hline bf hr.1 hr.2).2
  | file =>
    rw [hkind] at hr
    exact (hline false hr.1 hr.2).1
  | syslog => rw [hkind] at hk; exact hk.elim
  | nowhere => rw [hkind] at hk; exact hk.elim

/-- **C74**, the text.  A console without colours, and a file that could be opened, contain one line of the layout of C10 for each message
owed to the sink, in the order of the calls, and nothing else. -/
theorem C74_lines {s : State} {owed : Nat → List Msg} (h : History E ok s owed) (hn : NoEmpty s) {k : Nat} {c : Cfg}
    (hc : (s.st.specs k).cfg = some c) (hk : Stream c.kind) (ho : c.kind = .file → E.opened k = true) (hcol : ∀ b, c.kind ≠ .console true b)
    (hr : Roomy c) (he : SaneEnv (E.world k)) (hlt : ∀ s, ((E.world k).lt s).Ok) (hsec : ∀ n, Spec.second ((E.world k).env n).now ≠ 0) :
    (s.heap.leaf k).written.map (·.2) =
      (eventsOf (E.world k).env c.ti c.maxLen 0 (owed k)).map (lineOf (E.world k).lt c.ti) := by
  have hi := (history_inv (sysOk_any ok) h).leaf hn k
  have hcfg : (s.heap.leaf k).cfg = c := by rw [hi.cfg]; unfold cfgOf; rw [hc]; rfl
  have hw := hi.w
  rw [C74_written h hn hc hk ho]
  refine List.map_congr_left fun e hm => ?_
  obtain ⟨n, m, rfl⟩ := eventsOf_mem hm
  have := record_line (l := s.heap.leaf k) (by rw [hcfg]; exact hk) (by rw [hcfg]; exact hr) (by rw [hw]; exact he) (by rw [hw]; exact hlt)
    (by rw [hw]; exact hsec) (by rw [hcfg]; exact hcol) n m
  rw [hcfg, hw] at this
  exact this

/-! ## C73 -/

/-- groups made by hand are no roots without a sink, `getLogger` is not called before there is a group -/
def Careful (s : State) : Call → Prop
  | .system (.makeGroup _ p k _) => p.isSome ∨ k.isSome
  | .system (.getLogger _ _ _ _) => 0 < s.st.sys.ngroups
  | _ => True

theorem sysOk_careful : SysOk System.rootsNameSink Careful := by
  refine ⟨fun _ _ => Yaml.yamlOp_roots, fun _ _ => .inr rfl, fun _ _ => trivial, fun s o h => ?_⟩
  cases o with
  | makeGroup n p k l => exact h
  | _ => trivial

/-- **C73**, as far as it is true.  If nobody makes a root group without sink by hand, nobody calls `getLogger` before there is a group, no
multisink is without underlying sinks and the buffers are large enough, then nothing the program has done is undefined, and no next call is:
no null pointer is followed, no queue of capacity 0 is used, no staging buffer is overrun; log calls, flushes and rotations return. -/
theorem C73_nothing_undefined_partial {s : State} {owed : Nat → List Msg} (h : History E Careful s owed) (hn : NoEmpty s)
    (hr : ∀ k c, (s.st.specs k).cfg = some c → Roomy c) (he : ∀ k, SaneEnv (E.world k)) :
    s.heap.ub = false ∧ (∀ k, (s.heap.leaf k).ub = false) ∧
    (∀ c F, Careful s c → step E F s c ≠ .ub) ∧
    ∀ i v format fmt k F, 2 ≤ F → (∃ s', step E F s (.log i v format fmt) = .ok s') ∧ (∃ s', step E F s (.flush k) = .ok s') ∧
      ∃ s', step E F s (.rotate k) = .ok s' := by
  have hi := history_inv sysOk_careful h
  have hcl := history_clean sysOk_careful he h hn hr
  have hall := System.C46_sinks_partial hi.reach
  have hfull := tree_full hi.sinks.good hn
  refine ⟨hi.ub hn, fun k => (hcl k).ub, fun c F hc => ?_, fun i v format fmt k F hF => ⟨?_, ?_, ?_⟩⟩
  · cases c with
    | configure what cf =>
      have := (Yaml.C50_sinks (W := E.W) (F := F) (what := what) (c := cf) hi.reach).1
      simp only [step]
      cases hcf : Yaml.configure E.W F what cf s.st with
      | ub => exact absurd hcf this
      | _ => intro h; cases h
    | makeSink name spec =>
      simp only [step]
      rcases Yaml.createSink_cases E.W name spec s.st with he | ⟨_, b, he⟩ <;> (rw [he]; intro h; cases h)
    | system op =>
      have : System.step F s.st.sys op ≠ .ub := by
        refine sysStep_noUb hi.reach.wf hall ?_
        rintro ⟨n, g, k, l, rfl⟩
        exact reach_fallback hi.reach hc
      simp only [step]
      cases hst : System.step F s.st.sys op with
      | ub => exact absurd hst this
      | ret v y => simp only; split <;> (intro h; cases h)
      | _ => intro h; cases h
    | log i v format fmt =>
      simp only [step, logCall]
      split
      · rename_i hl
        obtain ⟨j, hj⟩ := Option.isSome_iff_exists.1 (hall.2 i hl.1)
        rw [hj]
        simp only
        split <;> (intro h; cases h)
      · intro h; cases h
    | flush k => simp only [step]; split <;> (intro h; cases h)
    | rotate k => simp only [step]; split <;> (intro h; cases h)
  · simp only [step, logCall]
    split
    · rename_i hl
      obtain ⟨j, hj⟩ := Option.isSome_iff_exists.1 (hall.2 i hl.1)
      rw [hj]
      obtain ⟨h', hh⟩ := log_ends (hi.leaf hn) hi.valid (hfull j) hF (s.st.sys.lgr i).name (s.st.sys.lgr i).level v format fmt
      simp only [hh]
      exact ⟨_, rfl⟩
    · exact ⟨_, rfl⟩
  · simp only [step]; split <;> exact ⟨_, rfl⟩
  · simp only [step]; split <;> exact ⟨_, rfl⟩

/-- Sinks that come from a document have large enough buffers, except possibly those to syslog. -/
theorem C73_document_sinks_roomy {s s' : Yaml.St} {W : Yaml.World} {F : Nat} {what : Text} {cf : Yaml.Configurator} {r : Yaml.Result}
    (h : Yaml.configure W F what cf s = .ok r s') {k : Nat} (h1 : s.sys.nsinks ≤ k) (h2 : k < s'.sys.nsinks) {c : Cfg}
    (hc : (s'.specs k).cfg = some c) (hs : c.kind ≠ .syslog) : Roomy c := by
  have hu := (Yaml.configure_tri (Yaml.newUsable_applyOn W F cf) h).2.2 k h1 h2 c hc
  obtain ⟨⟨h3, h4, h5, h6⟩, h7⟩ := hu
  unfold Roomy
  cases hk : c.kind with
  | syslog => exact absurd hk hs
  | nowhere => trivial
  | _ => exact ⟨by omega, h6⟩

/-! ### programs -/

/-- the state after a call that ends -/
def Out.state : Out → Option State
  | .ok s => some s
  | .throw s => some s
  | _ => none

/-- calls that are careful and proper (no user-made sinks here) -/
def plainCall (s : State) : Call → Bool
  | .system (.makeGroup _ p k _) => p.isSome || k.isSome
  | .system (.getLogger _ _ _ _) => decide (0 < s.st.sys.ngroups)
  | .makeSink _ _ => false
  | _ => true

/-- the state after some calls, and what is owed then -/
def run (E : Env) (F : Nat) : List Call → State → (Nat → List Msg) → Option (State × (Nat → List Msg))
  | [], s, owed => some (s, owed)
  | c :: cs, s, owed =>
    if plainCall s c then (step E F s c).state.bind fun s' => run E F cs s' fun k => owed k ++ owes s c s' k else none

theorem plainCall_spec {s : State} {c : Call} (h : plainCall s c = true) : Careful s c ∧ Proper s c := by
  cases c with
  | system op =>
    refine ⟨?_, trivial⟩
    cases op with
    | makeGroup n p k l => exact (Bool.or_eq_true p.isSome k.isSome).mp h
    | getLogger n g k l => exact of_decide_eq_true (p := 0 < s.st.sys.ngroups) h
    | _ => trivial
  | makeSink n sp => cases h
  | _ => exact ⟨trivial, trivial⟩

theorem run_history {F : Nat} (hF : 2 ≤ F) {cs : List Call} {s : State} {owed : Nat → List Msg} {r : State × (Nat → List Msg)}
    (h : History E Careful s owed) (hr : run E F cs s owed = some r) : History E Careful r.1 r.2 := by
  induction cs generalizing s owed with
  | nil => cases hr; exact h
  | cons c cs ih =>
    rw [run] at hr
    split at hr
    · rename_i hp
      obtain ⟨h1, h2⟩ := plainCall_spec hp
      cases hst : step E F s c with
      | ok s1 => rw [hst] at hr; exact ih (.call h h2 h1 hF (.inl hst)) hr
      | throw s1 => rw [hst] at hr; exact ih (.call h h2 h1 hF (.inr hst)) hr
      | ub => rw [hst] at hr; cases hr
      | diverge => rw [hst] at hr; cases hr
    · cases hr

/-- Document 16: a console "con" of level INFO, a multisink "both" over it and over a missing sink, a multisink "none" over a missing sink
only; the group "a" has the sink "both", its child "b" the sink "none". -/
def wholeDoc : Yaml.World := Yaml.demo [
  /- 16 -/ .map [(5, 17), (6, 21)],
  /- 17 -/ .seq [18, 19, 20],
  /- 18 -/ .map [(0, 30), (1, 31), (2, 35)],
  /- 19 -/ .map [(0, 32), (1, 33), (5, 26)],
  /- 20 -/ .map [(0, 34), (1, 33), (5, 27)],
  /- 21 -/ .seq [22],
  /- 22 -/ .map [(0, 36), (3, 32), (2, 37), (4, 23)],
  /- 23 -/ .seq [24],
  /- 24 -/ .map [(0, 38), (3, 34)],
  /- 25 -/ .map [(5, 28), (6, 29)],
  /- 26 -/ .seq [30, 39],
  /- 27 -/ .seq [39],
  /- 28 -/ .seq [18, 19],
  /- 29 -/ .seq [40],
  /- 30 -/ .scalar "con".toList, .scalar "console".toList, .scalar "both".toList, .scalar "multisink".toList, .scalar "none".toList,
  /- 35 -/ .scalar "info".toList, .scalar "a".toList, .scalar "debug".toList, .scalar "b".toList, .scalar "missing".toList,
  /- 40 -/ .map [(0, 36), (3, 32), (2, 37)]]

def demoEnv : Env := ⟨wholeDoc, fun _ => exampleWorld, fun _ => true⟩

/-- Document 25 without the bad multisink: a logger of "a" logs at three levels, one of them too detailed for the console, then a logger for
an unknown group is requested, which gives a warning, and logs. -/
def goodProgram : List Call :=
  [.configure [] (.yaml (.document 25)), .system (.getLogger ['l'] ['a'] none none), .log 0 .info "{}".toList (.ok "one".toList),
   .log 0 .debug "{}".toList (.ok "two".toList), .system (.setLevelOfGroup ['a'] .warn), .log 0 .info "{}".toList (.ok "three".toList),
   .system (.getLogger ['m'] ['z'] none none), .rotate 2, .log 1 .error "{}".toList (.ok "four".toList)]

def goodRun : Option (State × (Nat → List Msg)) := run demoEnv 20 goodProgram (new demoEnv false id false) fun _ => []

theorem goodRun_some : goodRun.isSome = true := by decide +kernel

/-- the state and the debts of the program -/
def good : State × (Nat → List Msg) := goodRun.get goodRun_some

theorem good_history : History demoEnv Careful good.1 good.2 :=
  run_history (by decide) (.new false id (fun _ => .refl _) false) (Option.some_get goodRun_some).symm

attribute [irreducible] good

theorem good_specs : good.1.st.sys.nsinks = 3 ∧ good.1.st.specs 0 = .nowhere ∧ good.1.st.specs 2 = .multi .trace [1] ∧
    good.1.st.specs 1 = .console false ⟨.console false false, .info, .none, 64, 1024, 2 ^ 17, 200⟩ := by
  decide +kernel

example : good.2 1 = [⟨['l'], .info, "{}".toList, .ok "one".toList⟩, ⟨"Soralog".toList, .warn,
    "Group '{}' for logger '{}' is not found. Fallback group will be used (it is group '{}' right now).".toList,
    .ok "Group 'z' for logger 'm' is not found. Fallback group will be used (it is group 'a' right now).".toList⟩,
    ⟨['m'], .error, "{}".toList, .ok "four".toList⟩] := by decide +kernel
example : (good.1.heap.leaf 1).written.length = 3 := by decide +kernel

theorem noEmpty_of {s : State} (hb : ∀ k, 3 ≤ k → s.st.specs k = .nowhere) {err : Bool} {c : Cfg} (hc : Roomy c) {lv : Level}
    (h1 : s.st.specs 0 = .nowhere) (h2 : s.st.specs 2 = .multi lv [1]) (h3 : s.st.specs 1 = .console err c) :
    NoEmpty s ∧ ∀ k c, (s.st.specs k).cfg = some c → Roomy c := by
  refine ⟨fun k lv hk => ?_, fun k c hc => ?_⟩
  · match k with
    | 0 => rw [h1] at hk; cases hk
    | 1 => rw [h3] at hk; cases hk
    | 2 => rw [h2] at hk; cases hk
    | k + 3 => rw [hb (k + 3) (by omega)] at hk; cases hk
  · match k with
    | 0 => rw [h1] at hc; cases hc
    | 1 => rw [h3] at hc; cases hc; assumption
    | 2 => rw [h2] at hc; cases hc
    | k + 3 => rw [hb (k + 3) (by omega)] at hc; cases hc

example : tree good.1.st.specs 2 = .multi .trace [.leaf 1] := by
  rw [((C74_structure good_history 2).1 _ _ good_specs.2.2.1).1, List.map_cons,
    (C74_structure good_history 1).2 (fun lv subs h => (by rw [good_specs.2.2.2] at h; cases h))]
  rfl

theorem good_noEmpty : NoEmpty good.1 ∧ ∀ k c, (good.1.st.specs k).cfg = some c → Roomy c :=
  noEmpty_of (fun k hk => (history_inv sysOk_careful good_history).sinks.beyond k (by rw [good_specs.1]; exact hk))
    (c := ⟨.console false false, .info, .none, 64, 1024, 2 ^ 17, 200⟩) ⟨by decide, by decide⟩
    good_specs.2.1 good_specs.2.2.1 good_specs.2.2.2

theorem demoEnv_sane (k : Nat) : SaneEnv (demoEnv.world k) := fun _ =>
  ⟨(by decide : (0 : Int) ≤ 1700000000000000000), (by decide : 1 < 2 ^ 64)⟩

theorem good_cfg : (good.1.st.specs 1).cfg = some ⟨.console false false, .info, .none, 64, 1024, 2 ^ 17, 200⟩ := by
  rw [good_specs.2.2.2]; rfl

example : (good.1.heap.leaf 1).queue = [] := (C74_accepted good_history good_noEmpty.1 good_cfg).2

/-- all hypotheses of the three theorems -/
example : (good.1.heap.leaf 1).written.map (·.2) =
    (eventsOf (demoEnv.world 1).env .none 1024 0 (good.2 1)).map (lineOf (demoEnv.world 1).lt .none) := by
  have h1 : ∀ t, ((demoEnv.world 1).lt t).Ok := fun _ => (by show (⟨24, 1, 2, 3, 4, 5⟩ : Render.Tm).Ok; unfold Render.Tm.Ok; decide)
  have h2 : ∀ n, Spec.second ((demoEnv.world 1).env n).now ≠ 0 := fun _ => (by show Spec.second 1700000000000000000 ≠ 0; decide)
  have h3 : Roomy ⟨.console false false, .info, .none, 64, 1024, 2 ^ 17, 200⟩ := ⟨by decide, by decide⟩
  have h := C74_lines good_history good_noEmpty.1 good_cfg trivial (fun h => (by cases h)) (fun b h => (by cases h)) h3 (demoEnv_sane 1) h1 h2
  exact h

example : good.1.heap.ub = false := (C73_nothing_undefined_partial good_history good_noEmpty.1 good_noEmpty.2 demoEnv_sane).1

/-- **C73 is false**: a document whose multisink names only a missing sink is accepted with a warning -- `configure` sets no error flag --,
and the first log call of a logger of the group that uses it is undefined: the event goes to the multisink's own queue of capacity 0.
All calls are proper and careful. -/
def badProgram : List Call :=
  [.configure [] (.yaml (.document 16)), .system (.getLogger ['l'] ['b'] none none), .log 0 .info "{}".toList (.ok "one".toList)]

def badRun : Option (State × (Nat → List Msg)) := run demoEnv 20 badProgram (new demoEnv false id false) fun _ => []

theorem badRun_some : badRun.isSome = true := by decide +kernel

theorem C73_refuted : ∃ s owed, History demoEnv Careful s owed ∧ s.heap.ub = true ∧
    (Yaml.configure wholeDoc 20 [] (.yaml (.document 16)) (Yaml.new false id false)).shows (fun r _ => (r.error, r.warning)) =
      some (false, true) :=
  ⟨(badRun.get badRun_some).1, (badRun.get badRun_some).2,
    run_history (by decide) (.new false id (fun _ => .refl _) false) (Option.some_get badRun_some).symm, by decide +kernel, by decide +kernel⟩

end Whole
end Soralog
