import Verif.Proofs.YamlReport
/-!
# Facts about whole documents used by `Props/Yaml.lean`
-/
namespace Soralog
namespace Yaml

open Soralog.System

/-! ### no undefined behaviour -/

def NoUb {α : Type} (m : M α) : Prop := ∀ s, m s ≠ .ub

theorem NoUb.bind {α β : Type} {m : M α} {k : α → M β} (hm : NoUb m) (hk : ∀ a, NoUb (k a)) : NoUb (m >>= k) := by
  intro s h
  rw [bind_def] at h
  cases he : m s with
  | ok a s' => rw [he] at h; exact hk a s' h
  | throw s' => rw [he] at h; cases h
  | ub => exact hm s he
  | diverge => rw [he] at h; cases h

theorem Ends.noUb {α : Type} {m : M α} (h : Ends m) : NoUb m := fun s => (h s).1

theorem Reading.noUb {α : Type} {m : M α} {r : Sys → Option α} (h : Reading m r) : NoUb m := h.ends.noUb

theorem call_noUb {F : Nat} {op : Op} (h : (∃ n p k l, op = .makeGroup n p k l) ∨ (∃ n, op = .setFallbackGroup n) ∨
    (∃ n p, op = .setParentOfGroup n p) ∨ (∃ n k, op = .setSinkOfGroup n k) ∨ ∃ n l, op = .setLevelOfGroup n l) : NoUb (call F op) := by
  intro s
  have hs : step F s.sys op ≠ .ub := by
    have hof : ∀ r : Option Sys, (ofOption r).map Val.bool ≠ .ub := by intro r; cases r <;> intro h <;> cases h
    rcases h with ⟨n, p, k, l, rfl⟩ | ⟨n, rfl⟩ | ⟨n, p, rfl⟩ | ⟨n, k, rfl⟩ | ⟨n, l, rfl⟩
    · simp only [step, makeGroup]
      repeat' split
      all_goals intro h; cases h
    · simp only [step, setFallbackGroup]
      split <;> intro h <;> cases h
    · simp only [step, setParentOfGroup]
      split
      · intro h; cases h
      · split
        · intro h; cases h
        · split
          · intro h; cases h
          · intro h; cases h
          · exact hof _
    · simp only [step, setSinkOfGroup]
      split
      · intro h; cases h
      · split
        · intro h; cases h
        · exact hof _
    · simp only [step, setLevelOfGroup]
      split
      · intro h; cases h
      · exact hof _
  unfold call
  cases he : step F s.sys op with
  | ub => exact absurd he hs
  | _ => intro h; cases h

theorem applyGroup_noUb (F : Nat) (g : GroupNode) (parent : Option Text) : NoUb (applyGroup F g parent) := by
  unfold applyGroup
  have hp : NoUb (pure () : M Unit) := (Reading.pure ()).noUb
  refine NoUb.bind (fun s h => by cases h) fun o => NoUb.bind ?_ fun _ => ?_
  · cases o with
    | none => exact call_noUb (.inl ⟨_, _, _, _, rfl⟩)
    | some _ =>
      unfold updateGroup
      refine NoUb.bind ?_ fun _ => NoUb.bind ?_ fun _ => ?_
      · cases parent with
        | none => exact hp
        | some p => exact call_noUb (.inr (.inr (.inl ⟨_, _, rfl⟩)))
      · cases g.sink with
        | none => exact hp
        | some p => exact call_noUb (.inr (.inr (.inr (.inl ⟨_, _, rfl⟩))))
      · cases g.level with
        | none => exact hp
        | some p => exact call_noUb (.inr (.inr (.inr (.inr ⟨_, _, rfl⟩))))
  · split
    · exact call_noUb (.inr (.inl ⟨_, rfl⟩))
    · exact hp

theorem parseGroupList_noUb {W : World} {one : Nat → List (Nat × Nat) → M Unit} (h : ∀ i e, NoUb (one i e)) (i : Nat) (items : List Nat) :
    NoUb (parseGroupList W one i items) := by
  induction items generalizing i with
  | nil => exact (Reading.pure ()).noUb
  | cons n ns ih =>
    unfold parseGroupList
    refine NoUb.bind ?_ fun _ => ih _
    unfold parseGroupItem
    split
    · exact h _ _
    · exact (Reading.error _).noUb

theorem parseGroup_noUb (W : World) (F f : Nat) (parent : Option Text) (i : Nat) (e : List (Nat × Nat)) :
    NoUb (parseGroup W F f parent i e) := by
  induction f generalizing parent i e with
  | zero => intro s h; cases h
  | succ f ih =>
    rw [parseGroup_succ]
    refine NoUb.bind (read_readGroup W i e parent).noUb fun o => ?_
    unfold afterRead
    cases o with
    | none => exact (Reading.pure ()).noUb
    | some g =>
      simp only
      split
      · exact (Reading.error _).noUb
      · refine NoUb.bind (applyGroup_noUb F g parent) fun _ => ?_
        split
        · exact parseGroupList_noUb (fun i e => ih _ i e) _ _
        · exact (Reading.pure ()).noUb

theorem parse_noUb (W : World) (F : Nat) (root : Node) : NoUb (parse W F root) := by
  unfold parse
  split
  · refine NoUb.bind ?_ fun _ => NoUb.bind (read_checkKeys W _ _ _).noUb fun _ => NoUb.bind ?_ fun _ => ?_
    · split
      · exact (Reading.error _).noUb
      · exact (Reading.pure ()).noUb
    · split
      · exact (ends_parseSinks W _).noUb
      · exact (Reading.pure ()).noUb
    · split
      · unfold parseGroups
        split
        · exact (Reading.error _).noUb
        · exact parseGroupList_noUb (fun i e => parseGroup_noUb W F F none i e) _ _
        · exact (Reading.error _).noUb
      · exact (Reading.pure ()).noUb
  · exact (Reading.error _).noUb

theorem applyOn_noUb (W : World) (F : Nat) (c : Configurator) : NoUb (applyOn W F c) := by
  have hrun : ∀ src r, NoUb (runOn W F src r) := by
    intro src r
    unfold runOn
    refine NoUb.bind (fun s h => by cases h) fun _ => NoUb.bind ?_ fun _ => fun s h => by cases h
    cases src with
    | document root => exact parse_noUb W F _
    | unreadable p w => cases p <;> exact (Reading.error _).noUb
  induction c with
  | fallback level color =>
    unfold applyOn applyFallback
    exact NoUb.bind (ends_createSink W _ _).noUb fun _ => NoUb.bind (call_noUb (.inl ⟨_, _, _, _, rfl⟩)) fun _ s h => by cases h
  | yaml src => exact hrun src _
  | yamlAfter p src ih =>
    unfold applyOn
    exact NoUb.bind ih fun r => hrun src r

/-! ### configure -/

/-- the state in which the configurator is applied -/
def started (s : St) : St := { s with sys := { s.sys with configured := true } }

/-- what `configure` returns -/
theorem configure_ok {W : World} {F : Nat} {what : Text} {c : Configurator} {s s' : St} {r : Result}
    (h : configure W F what c s = .ok r s') :
    s.sys.configured = false ∧ ((∃ r0, applyOn W F c (started s) = .ok r0 s') ∨ applyOn W F c (started s) = .throw s') := by
  unfold configure at h
  split at h
  · cases h
  · rename_i hc
    refine ⟨Bool.eq_false_iff.2 hc, ?_⟩
    change (match applyOn W F c (started s) with
      | .ub => .ub
      | .diverge => .diverge
      | .throw s =>
        .ok ⟨true, false, "E: Configure is failed: ".toList ++ what ++ "; Logging system is unworkable\n".toList⟩ s
      | .ok r s =>
        if s.sys.groups.isEmpty then
          .ok ⟨true, r.warning, r.message ++ "E: No one group is defined; Logging system is unworkable\n".toList⟩ s
        else
          match warnNowhere s.sys s.sys.groups r with
          | none => .ub
          | some r => .ok r s : Out Result) = .ok r s' at h
    cases ha : applyOn W F c (started s) with
    | ub => rw [ha] at h; cases h
    | diverge => rw [ha] at h; cases h
    | throw s1 => rw [ha] at h; cases h; exact .inr rfl
    | ok r0 s1 =>
      rw [ha] at h
      simp only at h
      split at h
      · cases h; exact .inl ⟨r0, rfl⟩
      · split at h
        · cases h
        · cases h; exact .inl ⟨r0, rfl⟩

/-- a triple about `applyOn` is one about `configure` -/
theorem configure_tri {P : St → St → Prop} {W : World} {F : Nat} {what : Text} {c : Configurator} {s s' : St} {r : Result}
    (ht : Tri P Any (applyOn W F c)) (h : configure W F what c s = .ok r s') : P (started s) s' := by
  have h1 := ht (started s)
  rcases (configure_ok h).2 with ⟨r0, h2⟩ | h2
  · rw [h2] at h1; exact h1.1
  · rw [h2] at h1; exact h1

/-- a relation that ignores problems, for which the parts of a document are known, holds for configurators -/
theorem tri_applyOn {P : St → St → Prop} [Pre P] {W : World} {F : Nat}
    (hparse : ∀ root, Tri P Any (parse W F root))
    (hstart : ∀ s : St, P s { s with errors := [], hasError := false, hasWarning := false })
    (herr : ∀ p, Tri P Any (error p))
    (hfb : ∀ level color, Tri P Any (applyFallback W F level color)) (c : Configurator) : Tri P Any (applyOn W F c) := by
  have hrun : ∀ src r, Tri P Any (runOn W F src r) := by
    intro src r
    unfold runOn
    refine Tri.bind (Q := Any) (fun s => ⟨hstart s, trivial⟩) fun _ _ => Tri.bind (Q := Any) ?_ fun _ _ => fun s => ⟨Pre.refl s, trivial⟩
    cases src with
    | document root => exact hparse _
    | unreadable p w => cases p <;> exact herr _
  induction c with
  | fallback level color => exact hfb level color
  | yaml src => exact hrun src _
  | yamlAfter p src ih =>
    unfold applyOn
    exact Tri.bind ih fun r _ => hrun src r

/-! ### parameters of new sinks -/

/-- the queue of the sink is usable -/
def Sane (c : Sink.Cfg) : Prop := 4 ≤ c.capacity ∧ 64 ≤ c.maxLen ∧ 416 ≤ c.maxBuffer ∧ 2 * c.maxLen ≤ c.maxBuffer

def NewSane (s s' : St) : Prop :=
  s.sys.nsinks ≤ s'.sys.nsinks ∧ (∀ k, k < s.sys.nsinks → s'.specs k = s.specs k) ∧
  ∀ k, s.sys.nsinks ≤ k → k < s'.sys.nsinks → ∀ c, (s'.specs k).cfg = some c → Sane c

instance : Pre NewSane where
  refl s := ⟨Nat.le_refl _, fun _ _ => rfl, fun k h1 h2 => absurd h2 (Nat.not_lt.2 h1)⟩
  trans := by
    rintro a b c ⟨h1, h2, h3⟩ ⟨h4, h5, h6⟩
    refine ⟨Nat.le_trans h1 h4, fun k hk => by rw [h5 k (Nat.lt_of_lt_of_le hk h1), h2 k hk], fun k hk1 hk2 => ?_⟩
    by_cases hb : k < b.sys.nsinks
    · rw [h5 k hb]; exact h3 k hk1 hb
    · exact h6 k (Nat.not_lt.1 hb) hk2

theorem mkCfg_sane {W : World} {e : List (Nat × Nat)} {console : Bool} {a : Args} (ha : ArgsWritten W e console a)
    {kind : Sink.Kind} {level : Level} {d : Defaults} (hd : 4 ≤ d.capacity ∧ 64 ≤ d.maxLen ∧ 416 ≤ d.buffer) :
    Sane (mkCfg kind level d a) := by
  have hnum : ∀ {key : Text} {accept : Int → Text → Bool} {o : Option Nat} {dflt bound : Nat}, NumberWritten W e key accept o →
      bound ≤ dflt → (∀ i t, accept i t = true → W.asInt t = some i → bound ≤ toSize i) → bound ≤ o.getD dflt := by
    intro key accept o dflt bound ho hb hacc
    cases o with
    | none => exact hb
    | some n =>
      obtain ⟨t, i, _, h1, h2, h3⟩ := ho n rfl
      subst h3
      exact hacc i t h2 h1
  have hpos : ∀ {i : Int} {b : Nat}, (b : Int) ≤ i → i < 2 ^ 31 → b ≤ toSize i := by
    intro i b h1 h2
    rw [toSize_nonneg (by omega) h2]
    omega
  have h1 : 4 ≤ a.capacity.getD d.capacity := hnum ha.capacity hd.1 fun i t h hi => hpos (of_decide_eq_true h) (W.asInt_range t i hi).2
  have h2 : 64 ≤ a.maxLen.getD d.maxLen := hnum ha.maxLen hd.2.1 fun i t h hi => by
    refine hpos ?_ (W.asInt_range t i hi).2
    have h3 := of_decide_eq_true h
    cases console with
    | true => have : (64 : Int) < i := h3; omega
    | false => exact h3
  have h3 : 416 ≤ a.buffer.getD d.buffer := hnum ha.buffer hd.2.2 fun i t h _ => by
    have h4 : 104 * 4 ≤ toSize i := of_decide_eq_true h
    omega
  refine ⟨h1, h2, ?_, ?_⟩
  · show 416 ≤ if a.buffer.getD d.buffer < a.maxLen.getD d.maxLen * 2 then a.maxLen.getD d.maxLen * 2 else a.buffer.getD d.buffer
    split
    · omega
    · exact h3
  · show 2 * a.maxLen.getD d.maxLen ≤
      if a.buffer.getD d.buffer < a.maxLen.getD d.maxLen * 2 then a.maxLen.getD d.maxLen * 2 else a.buffer.getD d.buffer
    split
    · omega
    · omega

theorem fromNode_sane {W : World} {e : List (Nat × Nat)} {spec : Spec} (h : FromNode W e spec) {c : Sink.Cfg} (hc : spec.cfg = some c) :
    Sane c := by
  cases h with
  | console hl ha => cases hc; exact mkCfg_sane ha (by decide)
  | file hp hl ha => cases hc; exact mkCfg_sane ha (by decide)
  | syslog hp hl ha => cases hc; exact mkCfg_sane ha (by decide)
  | multi hl => cases hc

theorem newSane_applyOn (W : World) (F : Nat) (c : Configurator) : Tri NewSane Any (applyOn W F c) := by
  refine tri_applyOn (fun root => ?_) (fun s => Pre.refl (P := NewSane) s) (fun p s => ⟨Pre.refl (P := NewSane) s, trivial⟩) ?_ c
  · refine (tri_parse W F root (P := NewSinks W)).weaken fun s s' ⟨h1, h2, h3⟩ => ⟨h1, h2, fun k hk1 hk2 c hc => ?_⟩
    obtain ⟨e, he, _⟩ := h3 k hk1 hk2
    exact fromNode_sane he hc
  · intro level color
    unfold applyFallback
    refine Tri.bind (Q := Any) ?_ fun _ _ => Tri.bind (Q := Any) ?_ fun _ _ => Tri.pure trivial
    · refine tri_createSink fun s b _ => ⟨Nat.le_succ _, fun k hk => upd_other _ _ (Nat.ne_of_lt hk), fun k h1 h2 c hc => ?_⟩
      have : k = s.sys.nsinks := Nat.le_antisymm (Nat.lt_succ_iff.1 h2) h1
      subst this
      simp only [upd_same] at hc
      cases hc
      exact ⟨(by decide : 4 ≤ 64), (by decide : 64 ≤ 1024), (by decide : 416 ≤ 2 ^ 17), (by decide : 2 * 1024 ≤ 2 ^ 17)⟩
    · refine call_tri fun s y v h => ?_
      have hy : y.nsinks = s.sys.nsinks := by
        simp only [step, makeGroup] at h
        revert h
        repeat' split
        all_goals (intro h; rcases h with h | h <;> cases h; rfl)
      refine ⟨Nat.le_of_eq hy.symm, fun _ _ => rfl, fun k h1 h2 => ?_⟩
      have h2 : k < y.nsinks := h2
      omega

/-! ### the reserved name -/

/-- the name `*` is neither given nor taken -/
structure Reserved (a b : Sys) : Prop where
  sink : b.sinks.find star = a.sinks.find star
  sinks : a.nsinks ≤ b.nsinks
  sinkOld : ∀ k, k < a.nsinks → b.sinkName k = a.sinkName k
  sinkNew : ∀ k, a.nsinks ≤ k → k < b.nsinks → b.sinkName k ≠ star
  groups : a.ngroups ≤ b.ngroups
  groupOld : ∀ x, x < a.ngroups → (b.grp x).name = (a.grp x).name
  groupNew : ∀ x, a.ngroups ≤ x → x < b.ngroups → (b.grp x).name ≠ star
  fallback : b.groups.find star = a.groups.find star ∨ ∃ g, b.groups.find star = some g ∧ (b.grp g).name ≠ star

theorem Reserved.refl (a : Sys) : Reserved a a :=
  ⟨rfl, Nat.le_refl _, fun _ _ => rfl, fun k h1 h2 => absurd h2 (Nat.not_lt.2 h1), Nat.le_refl _, fun _ _ => rfl,
    fun k h1 h2 => absurd h2 (Nat.not_lt.2 h1), .inl rfl⟩

theorem Reserved.trans {a b c : Sys} (h1 : Reserved a b) (h2 : Reserved b c) (hb : ∀ k g, b.groups.find k = some g → g < b.ngroups) :
    Reserved a c := by
  refine ⟨h2.sink.trans h1.sink, Nat.le_trans h1.sinks h2.sinks, fun k hk => ?_, fun k hk1 hk2 => ?_, Nat.le_trans h1.groups h2.groups,
    fun x hx => ?_, fun x hx1 hx2 => ?_, ?_⟩
  · rw [h2.sinkOld k (Nat.lt_of_lt_of_le hk h1.sinks), h1.sinkOld k hk]
  · by_cases hk : k < b.nsinks
    · rw [h2.sinkOld k hk]; exact h1.sinkNew k hk1 hk
    · exact h2.sinkNew k (Nat.not_lt.1 hk) hk2
  · rw [h2.groupOld x (Nat.lt_of_lt_of_le hx h1.groups), h1.groupOld x hx]
  · by_cases hx : x < b.ngroups
    · rw [h2.groupOld x hx]; exact h1.groupNew x hx1 hx
    · exact h2.groupNew x (Nat.not_lt.1 hx) hx2
  · rcases h2.fallback with h | h
    · rw [h]
      rcases h1.fallback with h' | ⟨g, hg, hn⟩
      · exact .inl h'
      · exact .inr ⟨g, hg, by rw [h2.groupOld g (hb _ _ hg)]; exact hn⟩
    · exact .inr h

theorem reserved_step {s y : Sys} (hw : WF s) {F : Nat} {op : Op} {v : Val} (ho : yamlOp s op)
    (h : step F s op = .ret v y ∨ step F s op = .throw y) : Reserved s y := by
  cases op with
  | makeSink n =>
    rcases h with h | h <;> cases h
    refine ⟨Table.find_put_ne _ _ (fun e => ho e.symm), Nat.le_succ _, fun k hk => upd_other _ _ (Nat.ne_of_lt hk), fun k h1 h2 => ?_,
      Nat.le_refl _, fun _ _ => rfl, fun k h1 h2 => absurd h2 (Nat.not_lt.2 h1), .inl rfl⟩
    have : k = s.nsinks := Nat.le_antisymm (Nat.lt_succ_iff.1 h2) h1
    subst this
    simp only [upd_same]
    exact ho
  | makeGroup n p k l =>
    simp only [step, makeGroup_eq hw.gLt] at h
    split at h
    · rename_i p' k' _ _ _
      rcases h with h | h <;> cases h
      refine ⟨rfl, Nat.le_refl _, fun _ _ => rfl, fun k h1 h2 => absurd h2 (Nat.not_lt.2 h1), Nat.le_succ _,
        fun x hx => by simp only [upd_other _ _ (Nat.ne_of_lt hx)], fun x h1 h2 => ?_, ?_⟩
      · have : x = s.ngroups := Nat.le_antisymm (Nat.lt_succ_iff.1 h2) h1
        subst this
        simp only [upd_same, newGroup]
        exact ho.1
      · simp only
        rw [Table.find_put_ne _ _ (fun e => ho.1 e.symm)]
        split
        · rw [Table.find_put_self]
          refine .inr ⟨s.ngroups, rfl, ?_⟩
          simp only [upd_same, newGroup]
          exact ho.1
        · exact .inl rfl
    · rcases h with h | h <;> cases h
      exact .refl _
  | setFallbackGroup n =>
    simp only [step, setFallbackGroup] at h
    cases hg : s.groups.find n with
    | none => rw [hg] at h; rcases h with h | h <;> cases h; exact .refl _
    | some g =>
      rw [hg] at h
      rcases h with h | h <;> cases h
      refine { Reserved.refl s with fallback := .inr ⟨g, by simp only; rw [Table.find_put_self], ?_⟩ }
      rcases hw.gName n g hg with e | e
      · exact absurd e ho
      · show (s.grp g).name ≠ star
        rw [e]; exact ho
  | setParentOfGroup g p =>
    have ht : Trans ⟨fun _ _ => True, fun _ _ => False, False, True⟩ s y :=
      step_trans hw (fun _ _ _ _ _ _ _ => trivial) (fun _ _ _ _ _ _ he => by cases he) (fun _ he => by cases he) h
    have hsk := step_sinks ho (fun _ he => by cases he) h
    have hgen : y.ngroups = s.ngroups → y.groups = s.groups → (∀ x, (y.grp x).name = (s.grp x).name) → Reserved s y := by
      intro h1 h2 h3
      exact ⟨by rw [hsk.2.1], Nat.le_of_eq hsk.1.symm, fun k _ => by rw [hsk.2.2], fun k h4 h5 => by rw [hsk.1] at h5; omega,
        Nat.le_of_eq h1.symm, fun x _ => h3 x, fun x h4 h5 => by rw [h1] at h5; omega, .inl (by rw [h2])⟩
    cases ht with
    | refl => exact hgen rfl rfl fun _ => rfl
    | configured => exact hgen rfl rfl fun _ => rfl
    | erase k i hk hd => exact hgen rfl rfl fun _ => rfl
    | sink name => exact hgen rfl rfl fun _ => rfl
    | group name parent sink level p k hp hk hl hA => exact hA.elim
    | fallback name g hg hA => exact hA.elim
    | create name g sink level ws hd hg => exact hgen rfl rfl fun _ => rfl
    | logger i m hi ha hv => exact hgen rfl rfl fun _ => rfl
    | drop i => exact hgen rfl rfl fun _ => rfl
    | level _ g l hg h => exact hgen (by rw [h.rest]) (by rw [h.rest]) fun x => (h.shape x).1
    | sinkOf _ g k hg hk h => exact hgen (by rw [h.rest]) (by rw [h.rest]) fun x => (h.shape x).1
    | parentOf _ g p hg hp hA hwalk h => exact hgen (by rw [h.rest]) (by rw [h.rest]) fun x => (h.shape x).1
  | setSinkOfGroup g p =>
    have ht : Trans ⟨fun _ _ => True, fun _ _ => False, False, True⟩ s y :=
      step_trans hw (fun _ _ _ _ _ _ _ => trivial) (fun _ _ _ _ _ _ he => by cases he) (fun _ he => by cases he) h
    have hsk := step_sinks ho (fun _ he => by cases he) h
    have hgen : y.ngroups = s.ngroups → y.groups = s.groups → (∀ x, (y.grp x).name = (s.grp x).name) → Reserved s y := by
      intro h1 h2 h3
      exact ⟨by rw [hsk.2.1], Nat.le_of_eq hsk.1.symm, fun k _ => by rw [hsk.2.2], fun k h4 h5 => by rw [hsk.1] at h5; omega,
        Nat.le_of_eq h1.symm, fun x _ => h3 x, fun x h4 h5 => by rw [h1] at h5; omega, .inl (by rw [h2])⟩
    cases ht with
    | refl => exact hgen rfl rfl fun _ => rfl
    | configured => exact hgen rfl rfl fun _ => rfl
    | erase k i hk hd => exact hgen rfl rfl fun _ => rfl
    | sink name => exact hgen rfl rfl fun _ => rfl
    | group name parent sink level p k hp hk hl hA => exact hA.elim
    | fallback name g hg hA => exact hA.elim
    | create name g sink level ws hd hg => exact hgen rfl rfl fun _ => rfl
    | logger i m hi ha hv => exact hgen rfl rfl fun _ => rfl
    | drop i => exact hgen rfl rfl fun _ => rfl
    | level _ g l hg h => exact hgen (by rw [h.rest]) (by rw [h.rest]) fun x => (h.shape x).1
    | sinkOf _ g k hg hk h => exact hgen (by rw [h.rest]) (by rw [h.rest]) fun x => (h.shape x).1
    | parentOf _ g p hg hp hA hwalk h => exact hgen (by rw [h.rest]) (by rw [h.rest]) fun x => (h.shape x).1
  | setLevelOfGroup g p =>
    have ht : Trans ⟨fun _ _ => True, fun _ _ => False, False, True⟩ s y :=
      step_trans hw (fun _ _ _ _ _ _ _ => trivial) (fun _ _ _ _ _ _ he => by cases he) (fun _ he => by cases he) h
    have hsk := step_sinks ho (fun _ he => by cases he) h
    have hgen : y.ngroups = s.ngroups → y.groups = s.groups → (∀ x, (y.grp x).name = (s.grp x).name) → Reserved s y := by
      intro h1 h2 h3
      exact ⟨by rw [hsk.2.1], Nat.le_of_eq hsk.1.symm, fun k _ => by rw [hsk.2.2], fun k h4 h5 => by rw [hsk.1] at h5; omega,
        Nat.le_of_eq h1.symm, fun x _ => h3 x, fun x h4 h5 => by rw [h1] at h5; omega, .inl (by rw [h2])⟩
    cases ht with
    | refl => exact hgen rfl rfl fun _ => rfl
    | configured => exact hgen rfl rfl fun _ => rfl
    | erase k i hk hd => exact hgen rfl rfl fun _ => rfl
    | sink name => exact hgen rfl rfl fun _ => rfl
    | group name parent sink level p k hp hk hl hA => exact hA.elim
    | fallback name g hg hA => exact hA.elim
    | create name g sink level ws hd hg => exact hgen rfl rfl fun _ => rfl
    | logger i m hi ha hv => exact hgen rfl rfl fun _ => rfl
    | drop i => exact hgen rfl rfl fun _ => rfl
    | level _ g l hg h => exact hgen (by rw [h.rest]) (by rw [h.rest]) fun x => (h.shape x).1
    | sinkOf _ g k hg hk h => exact hgen (by rw [h.rest]) (by rw [h.rest]) fun x => (h.shape x).1
    | parentOf _ g p hg hp hA hwalk h => exact hgen (by rw [h.rest]) (by rw [h.rest]) fun x => (h.shape x).1
  | _ => exact ho.elim

theorem reserved_calls {a b : Sys} (ha : Reach a) (h : Calls yamlOp a b) : Reserved a b ∧ Reach b := by
  induction h with
  | refl => exact ⟨.refl _, ha⟩
  | ret h hok hc ih => exact ⟨ih.1.trans (reserved_step ih.2.wf hok (.inl hc)) ih.2.wf.gLt, .call ih.2 trivial hc⟩
  | throw h hok hc ih => exact ⟨ih.1.trans (reserved_step (v := .unit) ih.2.wf hok (.inr hc)) ih.2.wf.gLt, .failed ih.2 trivial hc⟩

/-! ### endless nesting -/

/-- for a group that exists: the calls end with a value or not at all, and the table of groups stays -/
theorem updateGroup_ok (F : Nat) (g : GroupNode) (parent : Option Text) (s : St) :
    (∃ s', updateGroup F g parent s = .ok () s' ∧ s'.sys.groups = s.sys.groups ∧ s'.sys.sinks = s.sys.sinks) ∨
    updateGroup F g parent s = .diverge := by
  have hprop : ∀ {stop : Group → Bool} {f : Change} {up : (Nat → Group) → Logger → Logger} {g : Nat} {s y : Sys},
      propagate F stop f up g s = some y → y.groups = s.groups ∧ y.sinks = s.sinks := by
    intro stop f up g s y h
    unfold propagate at h
    split at h
    · cases h
    · cases h; exact ⟨rfl, rfl⟩
  have hcall : ∀ (op : Op), ((∃ n p, op = .setParentOfGroup n p) ∨ (∃ n k, op = .setSinkOfGroup n k) ∨ ∃ n l, op = .setLevelOfGroup n l) →
      ∀ s : St, (∃ s', call F op s = .ok () s' ∧ s'.sys.groups = s.sys.groups ∧ s'.sys.sinks = s.sys.sinks) ∨ call F op s = .diverge := by
    intro op ho s
    have hof : ∀ {o : Option Sys}, (∀ y, o = some y → y.groups = s.sys.groups ∧ y.sinks = s.sys.sinks) →
        (∃ v y, (ofOption o).map Val.bool = .ret v y ∧ y.groups = s.sys.groups ∧ y.sinks = s.sys.sinks) ∨
          (ofOption o).map Val.bool = .diverge := by
      intro o ho
      cases o with
      | none => exact .inr rfl
      | some z => exact .inl ⟨_, z, rfl, ho z rfl⟩
    have hs : (∃ v y, step F s.sys op = .ret v y ∧ y.groups = s.sys.groups ∧ y.sinks = s.sys.sinks) ∨ step F s.sys op = .diverge := by
      rcases ho with ⟨n, p, rfl⟩ | ⟨n, k, rfl⟩ | ⟨n, l, rfl⟩
      · simp only [step, setParentOfGroup]
        split
        · exact .inl ⟨_, _, rfl, rfl, rfl⟩
        · split
          · exact .inl ⟨_, _, rfl, rfl, rfl⟩
          · split
            · exact .inr rfl
            · exact .inl ⟨_, _, rfl, rfl, rfl⟩
            · exact hof fun y hy => by unfold setParentOfGroupPtr at hy; have h9 := hprop hy; exact h9
      · simp only [step, setSinkOfGroup]
        split
        · exact .inl ⟨_, _, rfl, rfl, rfl⟩
        · split
          · exact .inl ⟨_, _, rfl, rfl, rfl⟩
          · exact hof fun y hy => by unfold setSinkOfGroupPtr at hy; have h9 := hprop hy; exact h9
      · simp only [step, setLevelOfGroup]
        split
        · exact .inl ⟨_, _, rfl, rfl, rfl⟩
        · exact hof fun y hy => by unfold setLevelOfGroupPtr at hy; have h9 := hprop hy; exact h9
    unfold call
    rcases hs with ⟨v, y, h1, h2⟩ | h1
    · rw [h1]; exact .inl ⟨_, rfl, h2⟩
    · rw [h1]; exact .inr rfl
  have hskip : ∀ s : St, (∃ s', (pure () : M Unit) s = .ok () s' ∧ s'.sys.groups = s.sys.groups ∧ s'.sys.sinks = s.sys.sinks) ∨
      (pure () : M Unit) s = .diverge := fun s => .inl ⟨s, rfl, rfl, rfl⟩
  have hbind : ∀ {m m' : M Unit}, (∀ s : St, (∃ s', m s = .ok () s' ∧ s'.sys.groups = s.sys.groups ∧ s'.sys.sinks = s.sys.sinks) ∨ m s = .diverge) →
      (∀ s : St, (∃ s', m' s = .ok () s' ∧ s'.sys.groups = s.sys.groups ∧ s'.sys.sinks = s.sys.sinks) ∨ m' s = .diverge) →
      ∀ s : St, (∃ s', (m >>= fun _ => m') s = .ok () s' ∧ s'.sys.groups = s.sys.groups ∧ s'.sys.sinks = s.sys.sinks) ∨
        (m >>= fun _ => m') s = .diverge := by
    intro m m' h1 h2 s
    rw [bind_def]
    rcases h1 s with ⟨s1, e1, g1, k1⟩ | e1
    · rw [e1]
      rcases h2 s1 with ⟨s2, e2, g2, k2⟩ | e2
      · exact .inl ⟨s2, e2, g2.trans g1, k2.trans k1⟩
      · exact .inr e2
    · rw [e1]; exact .inr rfl
  unfold updateGroup
  refine hbind ?_ (hbind ?_ ?_) s
  · cases parent with
    | none => exact hskip
    | some p => exact hcall _ (.inl ⟨_, _, rfl⟩)
  · cases g.sink with
    | none => exact hskip
    | some k => exact hcall _ (.inr (.inl ⟨_, _, rfl⟩))
  · cases g.level with
    | none => exact hskip
    | some l => exact hcall _ (.inr (.inr ⟨_, _, rfl⟩))

end Yaml
end Soralog
