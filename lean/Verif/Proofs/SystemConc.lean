import Verif.Props.SystemMore
import Verif.Spec.Serial
/-!
# Threads and the logging system: invariants
-/
namespace Soralog
namespace System
namespace Conc

open Hierarchy

/-! ### what a call leaves alone -/

structure Kept (s s' : Sys) : Prop where
  grp : s'.grp = s.grp
  ngroups : s'.ngroups = s.ngroups
  groups : s'.groups = s.groups
  sinks : s'.sinks = s.sinks
  nsinks : s'.nsinks = s.nsinks

theorem Kept.refl (s : Sys) : Kept s s := ⟨rfl, rfl, rfl, rfl, rfl⟩

/-- the calls on groups -/
def onGroups : Op → Bool
  | .setParentOfGroup .. | .unsetParentOfGroup .. | .setSinkOfGroup .. | .resetSinkOfGroup .. | .setLevelOfGroup ..
  | .resetLevelOfGroup .. => true
  | _ => false

theorem ofOption_cases {v : Val} {y : Sys} {o : Option Sys} {P : Sys → Prop} (ho : ∀ y, o = some y → P y)
    (h : (ofOption o).map Val.bool = .ret v y ∨ (ofOption o).map Val.bool = .throw y) : P y := by
  cases o with
  | none => rcases h with h | h <;> cases h
  | some z => rcases h with h | h <;> cases h; exact ho _ rfl

/-- the tables of groups and sinks stay -/
structure Tables (s y : Sys) : Prop where
  ngroups : y.ngroups = s.ngroups
  groups : y.groups = s.groups
  sinks : y.sinks = s.sinks
  nsinks : y.nsinks = s.nsinks

theorem propagate_tables {F : Nat} {stop : Group → Bool} {f : Change} {up : (Nat → Group) → Logger → Logger} {g : Nat} {s y : Sys}
    (h : propagate F stop f up g s = some y) : Tables s y := by
  unfold propagate at h
  split at h
  · cases h
  · cases h; exact ⟨rfl, rfl, rfl, rfl⟩

theorem levelPtr_tables {F g : Nat} {l : Option Level} {s y : Sys} (h : setLevelOfGroupPtr F g l s = some y) : Tables s y := by
  unfold setLevelOfGroupPtr at h
  have := propagate_tables h; exact ⟨this.1, this.2, this.3, this.4⟩
theorem sinkPtr_tables {F g : Nat} {l : Option Nat} {s y : Sys} (h : setSinkOfGroupPtr F g l s = some y) : Tables s y := by
  unfold setSinkOfGroupPtr at h
  have := propagate_tables h; exact ⟨this.1, this.2, this.3, this.4⟩
theorem parentPtr_tables {F g : Nat} {l : Option Nat} {s y : Sys} (h : setParentOfGroupPtr F g l s = some y) : Tables s y := by
  unfold setParentOfGroupPtr at h
  have := propagate_tables h; exact ⟨this.1, this.2, this.3, this.4⟩

/-- the calls on groups leave the tables of groups and sinks alone -/
theorem onGroups_tables {F : Nat} {s y : Sys} {op : Op} {v : Val} (hg : onGroups op = true)
    (h : System.step F s op = .ret v y ∨ System.step F s op = .throw y) : Tables s y := by
  have href : ∀ {b : Bool}, (Res.ret b s).map Val.bool = .ret v y ∨ (Res.ret b s).map Val.bool = .throw y → Tables s y := by
    intro b h
    rcases h with h | h <;> cases h; exact ⟨rfl, rfl, rfl, rfl⟩
  cases op <;> simp only [onGroups] at hg <;> try contradiction
  case setParentOfGroup g p =>
    simp only [System.step, setParentOfGroup] at h
    revert h
    (repeat' split) <;> intro h <;>
      first | exact href h | (rcases h with h | h <;> cases h; done) | exact ofOption_cases (P := Tables s) (fun y hy => parentPtr_tables hy) h
  case unsetParentOfGroup g =>
    simp only [System.step, unsetParentOfGroup] at h
    revert h
    (repeat' split) <;> intro h <;> first | exact href h | exact ofOption_cases (P := Tables s) (fun y hy => parentPtr_tables hy) h
  case setSinkOfGroup g k =>
    simp only [System.step, setSinkOfGroup] at h
    revert h
    (repeat' split) <;> intro h <;> first | exact href h | exact ofOption_cases (P := Tables s) (fun y hy => sinkPtr_tables hy) h
  case resetSinkOfGroup g =>
    simp only [System.step, resetSinkOfGroup] at h
    revert h
    (repeat' split) <;> intro h <;> first | exact href h | exact ofOption_cases (P := Tables s) (fun y hy => sinkPtr_tables hy) h
  case setLevelOfGroup g k =>
    simp only [System.step, setLevelOfGroup] at h
    revert h
    (repeat' split) <;> intro h <;> first | exact href h | exact ofOption_cases (P := Tables s) (fun y hy => levelPtr_tables hy) h
  case resetLevelOfGroup g =>
    simp only [System.step, resetLevelOfGroup] at h
    revert h
    (repeat' split) <;> intro h <;> first | exact href h | exact ofOption_cases (P := Tables s) (fun y hy => levelPtr_tables hy) h

/-- the calls on loggers leave the groups and sinks alone -/
theorem op_kept {F : Nat} {s y : Sys} {op : Op} {v : Val} (hg : onGroups op = false) (hm : isMakeGroup op = false)
    (hk : ∀ n, op ≠ .makeSink n) (hf : ∀ n, op ≠ .setFallbackGroup n)
    (h : System.step F s op = .ret v y ∨ System.step F s op = .throw y) : Kept s y := by
  have href : ∀ {b : Bool}, (Res.ret b s).map Val.bool = .ret v y ∨ (Res.ret b s).map Val.bool = .throw y → Kept s y := by
    intro b h
    rcases h with h | h <;> cases h; exact .refl _
  have hlog : ∀ {name erases up}, (onLogger name erases up s).map Val.bool = .ret v y ∨
      (onLogger name erases up s).map Val.bool = .throw y → Kept s y := by
    intro name erases up h
    rcases h with h | h
    · obtain ⟨b, hb, _⟩ := map_ret h
      rcases onLogger_ret hb with ⟨_, i, h1, h2, rfl⟩ | ⟨_, rfl | ⟨i, h1, h2, rfl⟩⟩ <;> exact ⟨rfl, rfl, rfl, rfl, rfl⟩
    · obtain ⟨b, s1, hb⟩ := onLogger_total name erases up s
      rw [hb] at h; cases h
  cases op <;> simp only [onGroups, isMakeGroup] at hg hm <;> try contradiction
  case makeSink n => exact absurd rfl (hk n)
  case setFallbackGroup n => exact absurd rfl (hf n)
  case getLogger n g k l =>
    rcases h with h | h
    · obtain ⟨i, h1, _⟩ := map_ret h
      rcases (getLogger_ret h1).2 with ⟨_, rfl⟩ | ⟨_, _, g, ws, _, rfl⟩
      · exact .refl _
      · exact ⟨rfl, rfl, rfl, rfl, rfl⟩
    · rw [getLogger_throw (map_throw h)]; exact .refl _
  case setGroupOfLogger l g =>
    simp only [System.step, setGroupOfLogger] at h
    revert h
    split <;> intro h
    · exact href h
    · exact hlog h
  case setSinkOfLogger l g =>
    simp only [System.step, setSinkOfLogger] at h
    revert h
    split <;> intro h
    · exact href h
    · exact hlog h
  case resetSinkOfLogger l => exact hlog h
  case setLevelOfLogger l x => exact hlog h
  case resetLevelOfLogger l => exact hlog h
  case onHandle i m =>
    simp only [System.step] at h
    revert h
    split <;> intro h <;> rcases h with h | h <;> cases h
    · exact ⟨rfl, rfl, rfl, rfl, rfl⟩
    · exact .refl _
  case drop i => rcases h with h | h <;> cases h; exact ⟨rfl, rfl, rfl, rfl, rfl⟩

theorem op_sizes {F : Nat} {s y : Sys} {op : Op} {v : Val} (hm : isMakeGroup op = false)
    (h : System.step F s op = .ret v y ∨ System.step F s op = .throw y) : y.ngroups = s.ngroups ∧ s.nsinks ≤ y.nsinks := by
  cases hg : onGroups op with
  | true => have := onGroups_tables hg h; exact ⟨this.ngroups, Nat.le_of_eq this.nsinks.symm⟩
  | false =>
    by_cases hk : ∃ n, op = .makeSink n
    · obtain ⟨n, rfl⟩ := hk
      rcases h with h | h <;> cases h
      exact ⟨rfl, Nat.le_succ _⟩
    · by_cases hf : ∃ n, op = .setFallbackGroup n
      · obtain ⟨n, rfl⟩ := hf
        simp only [System.step, setFallbackGroup] at h
        revert h
        split <;> intro h <;> rcases h with h | h <;> cases h <;> exact ⟨rfl, Nat.le_refl _⟩
      · have := op_kept hg hm (fun n e => hk ⟨n, e⟩) (fun n e => hf ⟨n, e⟩) h
        exact ⟨this.ngroups, Nat.le_of_eq this.nsinks.symm⟩

/-! ### insertion of any group -/

theorem insert_find {a : Args} {g : Group} {s : Sys} {n : Text} {x : Nat} (h : (insert a g s).groups.find n = some x) :
    (x = s.ngroups ∧ (n = star ∨ n = a.name)) ∨ s.groups.find n = some x := by
  rcases put_find h with ⟨rfl, rfl⟩ | h
  · exact .inl ⟨rfl, .inr rfl⟩
  · split at h
    · rcases put_find h with ⟨rfl, rfl⟩ | h
      · exact .inl ⟨rfl, .inl rfl⟩
      · exact .inr h
    · exact .inr h

theorem insert_wf {a : Args} {g : Group} {s : Sys} (hw : WF s) (hn : g.name = a.name) (hp : ∀ p, g.parent = some p → p < s.ngroups)
    (hk : ∀ k, g.sink = some k → k < s.nsinks) : WF (insert a g s) := by
  have hU : Table.Unique (if (s.groups.find star).isNone then s.groups.put star s.ngroups else s.groups) := by
    split
    · exact Table.put_unique hw.gU _ _
    · exact hw.gU
  have hold : ∀ x, x < s.ngroups → upd s.grp s.ngroups g x = s.grp x := fun x hx => upd_other _ _ (Nat.ne_of_lt hx)
  exact {
    hw with
    gU := Table.put_unique hU _ _
    gLt := fun n x h => by
      rcases insert_find h with ⟨rfl, _⟩ | h
      · exact Nat.lt_succ_self _
      · exact Nat.lt_succ_of_lt (hw.gLt n x h)
    gName := fun n x h => by
      show _ ∨ (upd s.grp s.ngroups g x).name = n
      rcases insert_find h with ⟨rfl, rfl | rfl⟩ | h
      · exact .inl rfl
      · right; rw [upd_same]; exact hn
      · rw [hold x (hw.gLt n x h)]; exact hw.gName n x h
    pLt := fun x q hx h => by
      have h : (upd s.grp s.ngroups g x).parent = some q := h
      apply Nat.lt_succ_of_lt
      rcases Nat.lt_or_eq_of_le (Nat.le_of_lt_succ hx) with hx | hx
      · rw [hold x hx] at h; exact hw.pLt x q hx h
      · subst hx
        rw [upd_same] at h
        exact hp q h
    gsLt := fun x q hx h => by
      have h : (upd s.grp s.ngroups g x).sink = some q := h
      rcases Nat.lt_or_eq_of_le (Nat.le_of_lt_succ hx) with hx | hx
      · rw [hold x hx] at h; exact hw.gsLt x q hx h
      · subst hx
        rw [upd_same] at h
        exact hk q h
    lgLt := fun i hi => Nat.lt_succ_of_lt (hw.lgLt i hi) }

theorem insert_allEnd {a : Args} {g : Group} {s : Sys} (hw : WF s) (he : AllEnd s) (hp : ∀ p, g.parent = some p → p < s.ngroups) :
    AllEnd (insert a g s) := by
  have hclosed : ∀ x p, x < s.ngroups → s.parent x = some p → p < s.ngroups := fun x p hx hp => hw.pLt x p hx hp
  have h2 : ∀ y, y < s.ngroups → (insert a g s).parent y = s.parent y := fun y hy => by
    show (upd s.grp s.ngroups g y).parent = _
    rw [upd_other _ _ (Nat.ne_of_lt hy)]; rfl
  intro x hx
  have hx : x < s.ngroups + 1 := hx
  rcases Nat.lt_or_eq_of_le (Nat.le_of_lt_succ hx) with hx | hx
  · obtain ⟨n, hn⟩ := he x hx
    exact ⟨n, ends_congr hclosed h2 hn hx⟩
  · subst hx
    have hself : (insert a g s).parent s.ngroups = g.parent := by
      show (upd s.grp s.ngroups g s.ngroups).parent = _
      rw [upd_same]
    cases hq : g.parent with
    | none => exact ⟨0, .root (hself.trans hq)⟩
    | some q =>
      have hlt := hp q hq
      obtain ⟨n, hn⟩ := he q hlt
      exact ⟨n + 1, .up (hself.trans hq) (Nat.ne_of_lt hlt) (ends_congr hclosed h2 hn hlt)⟩

/-! ### the structure, in all executions -/

/-- what a thread constructs refers to existing objects only -/
def PcOk (s : Sys) : PC → Prop
  | .mkInheritSink a p g | .mkInheritLevel a p g =>
    p < s.ngroups ∧ g.name = a.name ∧ (∀ q, g.parent = some q → q < s.ngroups) ∧ ∀ k, g.sink = some k → k < s.nsinks
  | .mkSink a g | .mkLevel a g | .mkInsert a g =>
    g.name = a.name ∧ (∀ q, g.parent = some q → q < s.ngroups) ∧ ∀ k, g.sink = some k → k < s.nsinks
  | _ => True

theorem PcOk.mono {s y : Sys} {p : PC} (h : PcOk s p) (h1 : s.ngroups ≤ y.ngroups) (h2 : s.nsinks ≤ y.nsinks) : PcOk y p := by
  cases p <;> first
    | trivial
    | exact ⟨Nat.lt_of_lt_of_le h.1 h1, h.2.1, fun q hq => Nat.lt_of_lt_of_le (h.2.2.1 q hq) h1, fun k hk => Nat.lt_of_lt_of_le (h.2.2.2 k hk) h2⟩
    | exact ⟨h.1, fun q hq => Nat.lt_of_lt_of_le (h.2.1 q hq) h1, fun k hk => Nat.lt_of_lt_of_le (h.2.2 k hk) h2⟩

structure Struct (s : St) : Prop where
  wf : WF s.sys
  ends : AllEnd s.sys
  pcs : ∀ t, PcOk s.sys (s.pc t)

theorem Struct.goto {s : St} (h : Struct s) (t : Tid) {p : PC} (hp : PcOk s.sys p) : Struct (s.goto t p) := by
  refine ⟨h.wf, h.ends, fun u => ?_⟩
  by_cases e : u = t
  · subst e; show PcOk _ (upd _ _ _ _); rw [upd_same]; exact hp
  · show PcOk _ (upd _ _ _ _); rw [upd_other _ _ e]; exact h.pcs u

theorem Struct.finish {s : St} (h : Struct s) (t : Tid) {y : Sys} (hw : WF y) (he : AllEnd y) (h1 : s.sys.ngroups ≤ y.ngroups)
    (h2 : s.sys.nsinks ≤ y.nsinks) (op : Op) (o : Outcome) : Struct (s.finish t y op o) := by
  refine ⟨hw, he, fun u => ?_⟩
  by_cases e : u = t
  · subst e; show PcOk _ (upd _ _ _ _); rw [upd_same]; trivial
  · show PcOk _ (upd _ _ _ _); rw [upd_other _ _ e]; exact (h.pcs u).mono h1 h2

theorem Struct.out {s : St} (h : Struct s) (t : Tid) {p : PC} (hp : PcOk s.sys p) (o : List SinkCall) :
    Struct { s with pc := upd s.pc t p, out := o } := by
  have := h.goto t hp
  exact ⟨this.wf, this.ends, this.pcs⟩

theorem struct_step {s : St} (h : Struct s) (t : Tid) : Struct (step s t) := by
  have hp := h.pcs t
  unfold step
  cases hpc : s.pc t with
  | idle => exact h
  | mkParent a =>
    dsimp only
    split
    · exact h.finish t h.wf h.ends (Nat.le_refl _) (Nat.le_refl _) _ _
    · rename_i p hf
      refine h.goto t ?_
      cases hap : a.parent with
      | none => rw [hap] at hf; cases hf
      | some pn =>
        rw [hap] at hf
        have hlt := h.wf.gLt pn p hf
        exact ⟨hlt, rfl, (by intro q hq; cases hq; exact hlt), (by intro k hk; cases hk)⟩
  | mkInheritSink a p g =>
    rw [hpc] at hp
    exact h.goto t ⟨hp.1, hp.2.1, hp.2.2.1, fun k hk => h.wf.gsLt p k hp.1 hk⟩
  | mkInheritLevel a p g =>
    rw [hpc] at hp
    exact h.goto t ⟨hp.2.1, hp.2.2.1, hp.2.2.2⟩
  | mkSink a g =>
    rw [hpc] at hp
    dsimp only
    split
    · exact h.goto t hp
    · split
      · exact h.finish t h.wf h.ends (Nat.le_refl _) (Nat.le_refl _) _ _
      · rename_i k hk
        exact h.goto t ⟨hp.1, hp.2.1, (by intro q hq; cases hq; exact (h.wf.kLt _ _ hk).1)⟩
  | mkLevel a g =>
    rw [hpc] at hp
    dsimp only
    split
    · exact h.goto t hp
    · split
      · exact h.goto t hp
      · exact h.finish t h.wf h.ends (Nat.le_refl _) (Nat.le_refl _) _ _
  | mkInsert a g =>
    rw [hpc] at hp
    exact h.finish t (insert_wf h.wf hp.1 hp.2.1 hp.2.2) (insert_allEnd h.wf h.ends hp.2.1) (Nat.le_succ _) (Nat.le_refl _) _ _
  | log1 i r =>
    refine h.goto t ?_
    split <;> trivial
  | log2 i r =>
    dsimp only
    split <;> first | exact h.out (p := .idle) t trivial _ | exact h.out (p := .log3 i) t trivial _
  | log3 i =>
    refine h.goto t ?_
    split <;> trivial
  | log4 i =>
    dsimp only
    split <;> first | exact h.out (p := .idle) t trivial _ | exact h.out (p := .log3 i) t trivial _

theorem struct_exec {s s' : St} (h : Struct s) (he : Exec s s') : Struct s' := by
  cases he with
  | call t op fuel v sys' hi hm hc =>
    have ht := step_all h.wf (.inl hc)
    obtain ⟨h1, h2⟩ := op_sizes hm (.inl hc)
    exact h.finish t (trans_wf h.wf ht) (trans_allEnd h.wf h.ends ht) (Nat.le_of_eq h1.symm) h2 _ _
  | failed t op fuel sys' hi hm hc =>
    have ht := step_all (v := .unit) h.wf (.inr hc)
    obtain ⟨h1, h2⟩ := op_sizes (v := .unit) hm (.inr hc)
    exact h.finish t (trans_wf h.wf ht) (trans_allEnd h.wf h.ends ht) (Nat.le_of_eq h1.symm) h2 _ _
  | configuring t hi =>
    exact ⟨trans_wf h.wf (Trans.configured (A := .all) s.sys trivial), trans_allEnd h.wf h.ends (Trans.configured (A := .all) s.sys trivial),
      fun u => (h.pcs u).mono (Nat.le_refl _) (Nat.le_refl _)⟩
  | makeGroup t a hi =>
    refine h.goto t ?_
    unfold Args.start
    split
    · trivial
    · exact ⟨rfl, (by intro q hq; cases hq), (by intro q hq; cases hq)⟩
  | log t i r hi ha => exact h.goto t trivial
  | flush t i hi ha => exact h.goto t trivial
  | step t hi => exact struct_step h t

theorem struct_reach {s : St} (h : Reach s) : Struct s := by
  induction h with
  | init debug ord ho => exact ⟨new_wf debug ord ho, fun x hx => by simp [init, new] at hx, fun _ => trivial⟩
  | next _ he ih => exact struct_exec ih he

/-! ### executions in which nothing is disturbed -/

theorem Serial.snoc {s s1 s2 : Sys} {ds : List Done} {d : Done} (h : Serial s ds s1) (h1 : Serial s1 [d] s2) : Serial s (ds ++ [d]) s2 := by
  induction h with
  | nil s => exact h1
  | ret fuel op v hc _ ih => exact .ret fuel op v hc (ih h1)
  | thrown fuel op hc _ ih => exact .thrown fuel op hc (ih h1)
  | configuring _ ih => exact .configuring (ih h1)

theorem Serial.reach {s s' : Sys} {ds : List Done} (h : Serial s ds s') (hr : System.Reach s) : System.Reach s' := by
  induction h with
  | nil s => exact hr
  | ret fuel op v hc _ ih => exact ih (.call hr trivial hc)
  | thrown fuel op hc _ ih => exact ih (.failed hr trivial hc)
  | configuring _ ih => exact ih (.configuring hr)

/-- what a thread inside `makeGroup` has read is still what it would read now -/
def Agrees (s : Sys) : PC → Prop
  | .mkParent a => a.parent.isSome = true
  | .mkInheritSink a p g => resolve s.groups a.parent = some (some p) ∧ g = { blank a with parent := some p }
  | .mkInheritLevel a p g => resolve s.groups a.parent = some (some p) ∧ g = { blank a with parent := some p, sink := (s.grp p).sink }
  | .mkSink a g => ∃ p, resolve s.groups a.parent = some p ∧ g = newGroup s a.name p none none
  | .mkLevel a g => ∃ p k, resolve s.groups a.parent = some p ∧ resolve s.sinks a.sink = some k ∧ g = newGroup s a.name p k none
  | .mkInsert a g => ∃ p k, resolve s.groups a.parent = some p ∧ resolve s.sinks a.sink = some k ∧
      (a.parent.isSome || a.level.isSome) = true ∧ g = newGroup s a.name p k a.level
  | _ => True

/-- the names given to `makeGroup` and the parent's values are the same in both states -/
structure SameView (a : Args) (s y : Sys) : Prop where
  groups : ∀ p, resolve s.groups a.parent = some p → resolve y.groups a.parent = some p
  sinks : ∀ k, resolve s.sinks a.sink = some k → resolve y.sinks a.sink = some k
  values : ∀ p, resolve s.groups a.parent = some (some p) → (y.grp p).sink = (s.grp p).sink ∧ (y.grp p).level = (s.grp p).level

theorem SameView.newGroup {a : Args} {s y : Sys} (h : SameView a s y) {p : Option Nat} (hp : resolve s.groups a.parent = some p)
    (n : Text) (k : Option Nat) (l : Option Level) : System.newGroup y n p k l = System.newGroup s n p k l := by
  unfold System.newGroup
  cases p with
  | none => cases l <;> rfl
  | some p =>
    obtain ⟨h1, h2⟩ := h.values p hp
    cases l <;> simp only [Option.bind_some, h1, h2]

theorem Agrees.mono {s y : Sys} {p : PC} (h : Agrees s p) (hv : ∀ a, making p = some a → SameView a s y) : Agrees y p := by
  cases p with
  | idle => trivial
  | mkParent a => exact h
  | mkInheritSink a p g => exact ⟨(hv a rfl).groups _ h.1, h.2⟩
  | mkInheritLevel a p g => exact ⟨(hv a rfl).groups _ h.1, by rw [((hv a rfl).values p h.1).1]; exact h.2⟩
  | mkSink a g =>
    obtain ⟨p, h1, h2⟩ := h
    exact ⟨p, (hv a rfl).groups _ h1, by rw [(hv a rfl).newGroup h1]; exact h2⟩
  | mkLevel a g =>
    obtain ⟨p, k, h1, h3, h2⟩ := h
    exact ⟨p, k, (hv a rfl).groups _ h1, (hv a rfl).sinks _ h3, by rw [(hv a rfl).newGroup h1]; exact h2⟩
  | mkInsert a g =>
    obtain ⟨p, k, h1, h3, h4, h2⟩ := h
    exact ⟨p, k, (hv a rfl).groups _ h1, (hv a rfl).sinks _ h3, h4, by rw [(hv a rfl).newGroup h1]; exact h2⟩
  | _ => trivial

theorem resolve_put {t : Table} {n : Text} {v : Nat} {o : Option Text} (h : o ≠ some n) {p : Option Nat} (hr : resolve t o = some p) :
    resolve (t.put n v) o = some p := by
  cases o with
  | none => exact hr
  | some k =>
    have hk : k ≠ n := fun e => h (by rw [e])
    unfold resolve at hr ⊢
    simp only [Table.find_put_ne t v hk]
    exact hr

theorem kept_view {a : Args} {s y : Sys} (h : Kept s y) : SameView a s y :=
  ⟨fun p hp => by rw [h.groups]; exact hp, fun k hk => by rw [h.sinks]; exact hk, fun p _ => by rw [h.grp]; exact ⟨rfl, rfl⟩⟩

theorem op_view {F : Nat} {s y : Sys} {op : Op} {v : Val} (hm : isMakeGroup op = false) {a : Args} (hd : ¬ disturbs a op)
    (h : System.step F s op = .ret v y ∨ System.step F s op = .throw y) : SameView a s y := by
  cases hg : onGroups op with
  | true =>
    have hT := onGroups_tables hg h
    have hnone : a.parent = none := by
      cases hp : a.parent with
      | none => rfl
      | some pn => exfalso; apply hd; cases op <;> simp only [onGroups] at hg <;> first | contradiction | (show a.parent.isSome = true; rw [hp]; rfl)
    refine ⟨fun p hp => by rw [hT.groups]; exact hp, fun k hk => by rw [hT.sinks]; exact hk, fun p hp => ?_⟩
    rw [hnone] at hp; cases hp
  | false =>
    by_cases hk : ∃ n, op = .makeSink n
    · obtain ⟨n, rfl⟩ := hk
      rcases h with h | h <;> cases h
      exact ⟨fun p hp => hp, fun k hk => resolve_put hd hk, fun _ _ => ⟨rfl, rfl⟩⟩
    · by_cases hf : ∃ n, op = .setFallbackGroup n
      · obtain ⟨n, rfl⟩ := hf
        simp only [System.step, setFallbackGroup] at h
        revert h
        split <;> intro h <;> rcases h with h | h <;> cases h
        · exact kept_view (.refl _)
        · exact ⟨fun p hp => resolve_put hd hp, fun k hk => hk, fun _ _ => ⟨rfl, rfl⟩⟩
      · exact kept_view (op_kept hg hm (fun n e => hk ⟨n, e⟩) (fun n e => hf ⟨n, e⟩) h)

theorem insert_view {a a' : Args} {g : Group} {s : Sys} (hw : WF s) (hd : ¬ disturbs a a'.op) : SameView a s (insert a' g s) := by
  refine ⟨fun p hp => ?_, fun k hk => hk, fun p hp => ?_⟩
  · have hd : a.parent ≠ some a'.name := hd
    refine resolve_put hd ?_
    split
    · rename_i hs
      by_cases he : a.parent = some star
      · exfalso
        rw [he] at hp
        rw [Option.isNone_iff_eq_none] at hs
        have hp : Option.map some (s.groups.find star) = some p := hp
        rw [hs] at hp; cases hp
      · exact resolve_put he hp
    · exact hp
  · obtain ⟨kn, _, h⟩ := resolve_registered hp rfl
    have : p < s.ngroups := hw.gLt _ _ h
    show (upd s.grp s.ngroups g p).sink = _ ∧ (upd s.grp s.ngroups g p).level = _
    rw [upd_other _ _ (Nat.ne_of_lt this)]
    exact ⟨rfl, rfl⟩

structure Calm (debug : Bool) (ord : List Nat → List Nat) (s : St) : Prop where
  serial : Serial (System.new debug ord) s.done s.sys
  agrees : ∀ t, Agrees s.sys (s.pc t)

theorem Calm.goto {debug : Bool} {ord : List Nat → List Nat} {s : St} (h : Calm debug ord s) (t : Tid) {p : PC} (hp : Agrees s.sys p) :
    Calm debug ord (s.goto t p) := by
  refine ⟨h.serial, fun u => ?_⟩
  by_cases e : u = t
  · subst e; show Agrees _ (upd _ _ _ _); rw [upd_same]; exact hp
  · show Agrees _ (upd _ _ _ _); rw [upd_other _ _ e]; exact h.agrees u

theorem Calm.out {debug : Bool} {ord : List Nat → List Nat} {s : St} (h : Calm debug ord s) (t : Tid) {p : PC} (hp : Agrees s.sys p)
    (o : List SinkCall) : Calm debug ord { s with pc := upd s.pc t p, out := o } := by
  have := h.goto t hp
  exact ⟨this.serial, this.agrees⟩

theorem Calm.finish {debug : Bool} {ord : List Nat → List Nat} {s : St} (h : Calm debug ord s) (t : Tid) {y : Sys} {op : Op} {o : Outcome}
    (hs : Serial s.sys [.call op o] y) (hu : Undisturbing s (s.finish t y op o))
    (hv : ∀ a, ¬ disturbs a op → SameView a s.sys y) : Calm debug ord (s.finish t y op o) := by
  refine ⟨h.serial.snoc hs, fun u => ?_⟩
  by_cases e : u = t
  · subst e; show Agrees _ (upd _ _ _ _); rw [upd_same]; trivial
  · have hpc : (s.finish t y op o).pc u = s.pc u := upd_other _ _ e
    rw [hpc]
    exact (h.agrees u).mono fun a ha => hv a (hu u a op o ha (by rw [hpc]; exact ha) rfl)

theorem makeGroup_throws {s : Sys} (hw : WF s) (a : Args)
    (h : resolve s.groups a.parent = none ∨ resolve s.sinks a.sink = none ∨ (a.parent.isSome || a.level.isSome) = false) :
    Serial s [.call a.op .thrown] s := by
  refine .thrown 0 _ ?_ (.nil s)
  show (makeGroup _ _ _ _ s).map Val.group = _
  rw [makeGroup_eq hw.gLt]
  rcases h with h | h | h
  · rw [h]; rfl
  · rw [h]; cases resolve s.groups a.parent <;> rfl
  · rw [h]; cases resolve s.groups a.parent <;> cases resolve s.sinks a.sink <;> rfl

theorem makeGroup_inserts {s : Sys} (hw : WF s) (a : Args) {p k : Option Nat} (h1 : resolve s.groups a.parent = some p)
    (h2 : resolve s.sinks a.sink = some k) (h3 : (a.parent.isSome || a.level.isSome) = true) :
    Serial s [.call a.op (.ret (.group s.ngroups))] (insert a (newGroup s a.name p k a.level) s) := by
  refine .ret 0 _ _ ?_ (.nil _)
  show (makeGroup _ _ _ _ s).map Val.group = _
  rw [makeGroup_eq hw.gLt, h1, h2, h3]
  rfl

theorem calm_step {debug : Bool} {ord : List Nat → List Nat} {s : St} (hS : Struct s) (h : Calm debug ord s) (t : Tid)
    (hu : Undisturbing s (step s t)) : Calm debug ord (step s t) := by
  have hp := h.agrees t
  revert hu
  unfold step
  cases hpc : s.pc t with
  | idle => intro _; exact h
  | mkParent a =>
    rw [hpc] at hp
    dsimp only
    cases hap : a.parent with
    | none => have hp : a.parent.isSome = true := hp; rw [hap] at hp; cases hp
    | some pn =>
      cases hf : s.sys.groups.find pn with
      | none =>
        simp only [Option.bind_some, hf]
        intro hu
        exact h.finish t (makeGroup_throws hS.wf a (.inl (by rw [hap]; simp [resolve, hf]))) hu (fun _ _ => kept_view (.refl _))
      | some p =>
        simp only [Option.bind_some, hf]
        intro _
        exact h.goto t ⟨by rw [hap]; simp [resolve, hf], rfl⟩
  | mkInheritSink a p g =>
    rw [hpc] at hp
    intro _
    exact h.goto t ⟨hp.1, by rw [hp.2]⟩
  | mkInheritLevel a p g =>
    rw [hpc] at hp
    intro _
    exact h.goto t ⟨some p, hp.1, by rw [hp.2]; rfl⟩
  | mkSink a g =>
    rw [hpc] at hp
    obtain ⟨p, h1, h2⟩ := hp
    dsimp only
    cases hk : a.sink with
    | none => intro _; exact h.goto t ⟨p, none, h1, by rw [hk]; rfl, h2⟩
    | some kn =>
      dsimp only
      cases hf : s.sys.sinks.find kn with
      | none =>
        intro hu
        exact h.finish t (makeGroup_throws hS.wf a (.inr (.inl (by rw [hk]; simp [resolve, hf])))) hu (fun _ _ => kept_view (.refl _))
      | some k =>
        intro _
        refine h.goto t ⟨p, some k, h1, by rw [hk]; simp [resolve, hf], ?_⟩
        rw [h2]
        cases p <;> rfl
  | mkLevel a g =>
    rw [hpc] at hp
    obtain ⟨p, k, h1, h3, h2⟩ := hp
    have hpar : g.parent = p := by rw [h2]; rfl
    have hsome : a.parent.isSome = p.isSome := (resolve_isSome h1).symm
    dsimp only
    cases hl : a.level with
    | some l =>
      intro _
      refine h.goto t ⟨p, k, h1, h3, by rw [hl]; simp, ?_⟩
      rw [h2, hl]
      cases p <;> rfl
    | none =>
      dsimp only
      split
      · rename_i hps
        intro _
        refine h.goto t ⟨p, k, h1, h3, by rw [hsome, ← hpar, hps]; rfl, ?_⟩
        rw [h2, hl]
      · rename_i hps
        intro hu
        refine h.finish t (makeGroup_throws hS.wf a (.inr (.inr ?_))) hu (fun _ _ => kept_view (.refl _))
        rw [hsome, ← hpar, hl]
        simpa using hps
  | mkInsert a g =>
    rw [hpc] at hp
    obtain ⟨p, k, h1, h3, h4, rfl⟩ := hp
    intro hu
    exact h.finish t (makeGroup_inserts hS.wf a h1 h3 h4) hu (fun a' ha' => insert_view hS.wf ha')
  | log1 i r => intro _; refine h.goto t ?_; split <;> trivial
  | log2 i r =>
    dsimp only
    split <;> intro _ <;> first | exact h.out (p := .idle) t trivial _ | exact h.out (p := .log3 i) t trivial _
  | log3 i => intro _; refine h.goto t ?_; split <;> trivial
  | log4 i =>
    dsimp only
    split <;> intro _ <;> exact h.out (p := .idle) t trivial _

theorem CalmReach.reach {debug : Bool} {ord : List Nat → List Nat} {s : St} (h : CalmReach debug ord s) : Reach s := by
  induction h with
  | init ho => exact .init debug ord ho
  | next _ he _ ih => exact .next ih he

theorem calm_reach {debug : Bool} {ord : List Nat → List Nat} {s : St} (h : CalmReach debug ord s) : Calm debug ord s := by
  induction h with
  | init ho => exact ⟨.nil _, fun _ => trivial⟩
  | next hr he hu ih =>
    have hS := struct_reach hr.reach
    cases he with
    | call t op fuel v sys' hi hm hc =>
      exact ih.finish t (.ret fuel op v hc (.nil _)) hu (fun a ha => op_view hm ha (.inl hc))
    | failed t op fuel sys' hi hm hc =>
      exact ih.finish t (.thrown fuel op hc (.nil _)) hu (fun a ha => op_view (v := .unit) hm ha (.inr hc))
    | configuring t hi =>
      exact ⟨ih.serial.snoc (.configuring (.nil _)), fun u => (ih.agrees u).mono fun a _ => kept_view ⟨rfl, rfl, rfl, rfl, rfl⟩⟩
    | makeGroup t a hi =>
      refine ih.goto t ?_
      unfold Args.start
      split
      · assumption
      · rename_i hp
        have : a.parent = none := by simpa using hp
        exact ⟨none, by rw [this]; rfl, rfl⟩
    | log t i r hi ha => exact ih.goto t trivial
    | flush t i hi ha => exact ih.goto t trivial
    | step t hi => exact calm_step hS ih t hu

end Conc
end System
end Soralog
