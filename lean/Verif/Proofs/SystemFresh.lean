import Verif.Proofs.SystemInv
/-!
# Every call is a transition; the invariants hold in every reachable state
-/
namespace Soralog
namespace System

open Hierarchy

theorem resolve_registered {t : Table} {o : Option Text} {p : Option Nat} (h : resolve t o = some p) {q : Nat}
    (hq : p = some q) : ∃ k, o = some k ∧ t.find k = some q := by
  unfold resolve at h
  cases o with
  | none => subst hq; cases h
  | some k =>
    simp only [Option.map_eq_some_iff] at h
    obtain ⟨v, h1, h2⟩ := h
    subst hq; cases h2
    exact ⟨k, rfl, h1⟩

theorem resolve_isSome {t : Table} {o : Option Text} {p : Option Nat} (h : resolve t o = some p) :
    p.isSome = o.isSome := by
  unfold resolve at h
  cases o with
  | none => cases h; rfl
  | some k =>
    simp only [Option.map_eq_some_iff] at h
    obtain ⟨v, _, rfl⟩ := h
    rfl

theorem ofOption_ret {r : Option Sys} {b : Bool} {s' : Sys} (h : ofOption r = .ret b s') : b = true ∧ r = some s' := by
  unfold ofOption at h
  cases r with
  | none => cases h
  | some s => cases h; exact ⟨rfl, rfl⟩

theorem ofOption_throw {r : Option Sys} {s' : Sys} (h : ofOption r = .throw s') : False := by
  unfold ofOption at h
  cases r <;> cases h

theorem map_ret {α β : Type} {f : α → β} {r : Res α} {v : β} {s' : Sys} (h : r.map f = .ret v s') :
    ∃ a, r = .ret a s' ∧ v = f a := by
  cases r with
  | ret a s => cases h; exact ⟨a, rfl, rfl⟩
  | throw s => cases h
  | ub => cases h
  | diverge => cases h

theorem map_throw {α β : Type} {f : α → β} {r : Res α} {s' : Sys} (h : r.map f = .throw s') : r = .throw s' := by
  cases r with
  | ret a s => cases h
  | throw s => cases h; rfl
  | ub => cases h
  | diverge => cases h

theorem onLogger_trans {A : Allow} {name : Text} {erases : Bool} {m : Nat → Method} {up : Logger → Logger} {s s' : Sys} {b : Bool}
    (hw : WF s) (hup : ∀ i, up (s.lgr i) = (s.lgr i).call s.grp (m i)) (hv : ∀ i, i < s.nloggers → (m i).valid s)
    (h : onLogger name erases up s = .ret b s') : Trans A s s' := by
  rcases onLogger_ret h with ⟨_, i, h1, h2, rfl⟩ | ⟨_, rfl | ⟨i, h1, h2, rfl⟩⟩
  · rw [hup]
    have := (hw.lLt _ _ h1).1
    exact .logger s i _ this h2 (hv i this)
  · exact .refl _
  · exact .erase s name i h1 h2

/-- Every call that returns or throws is a transition. -/
theorem step_trans {A : Allow} {fuel : Nat} {s s' : Sys} {op : Op} {v : Val} (hw : WF s)
    (hAr : ∀ g p g' p', op = .setParentOfGroup g p → s.groups.find g = some g' → s.groups.find p = some p' → A.reparent g' p')
    (hAg : ∀ n p k l p' k', op = .makeGroup n p k l → resolve s.groups p = some p' → resolve s.sinks k = some k' → A.group p' k')
    (hAf : ∀ n, op = .setFallbackGroup n → A.fallback)
    (h : step fuel s op = .ret v s' ∨ step fuel s op = .throw s') : Trans A s s' := by
  cases op with
  | makeSink n =>
    rcases h with h | h
    · cases h; exact .sink s n
    · cases h
  | makeGroup n p k l =>
    have key : ∀ r : Res Nat, makeGroup n p k l s = r → (∃ g, r = .ret g s') ∨ r = .throw s' → Trans A s s' := by
      intro r hr h
      rw [makeGroup_eq hw.gLt] at hr
      subst hr
      cases hp : resolve s.groups p with
      | none => rw [hp] at h; rcases h with ⟨g, h⟩ | h <;> cases h; exact .refl s
      | some p' =>
        cases hk : resolve s.sinks k with
        | none => rw [hp, hk] at h; rcases h with ⟨g, h⟩ | h <;> cases h; exact .refl s
        | some k' =>
          cases hl : (p.isSome || l.isSome) with
          | false => rw [hp, hk, hl] at h; rcases h with ⟨g, h⟩ | h <;> cases h; exact .refl s
          | true =>
            rw [hp, hk, hl] at h
            rcases h with ⟨g, h⟩ | h
            · cases h
              exact .group s n p k l p' k' hp hk hl (hAg _ _ _ _ _ _ rfl hp hk)
            · cases h
    rcases h with h | h
    · obtain ⟨a, ha, _⟩ := map_ret h
      exact key _ rfl (.inl ⟨a, ha⟩)
    · exact key _ rfl (.inr (map_throw h))
  | setFallbackGroup n =>
    rcases h with h | h
    · obtain ⟨a, ha, _⟩ := map_ret h
      unfold setFallbackGroup at ha
      split at ha
      · cases ha; exact .refl s
      · rename_i g hg
        cases ha; exact .fallback s n g hg (hAf n rfl)
    · have := map_throw h
      unfold setFallbackGroup at this
      split at this <;> cases this
  | getLogger n g k l =>
    rcases h with h | h
    · obtain ⟨a, ha, _⟩ := map_ret h
      obtain ⟨_, h1 | ⟨h1, _, g', ws, h2, h3⟩⟩ := getLogger_ret ha
      · rw [h1.2]; exact .refl s
      · rw [h3]
        exact .create s n g' k l ws h1 (h2.elim (fun h => ⟨_, h⟩) (fun h => ⟨_, h.2⟩))
    · rw [getLogger_throw (map_throw h)]; exact .refl s
  | setParentOfGroup g p =>
    have key : ∀ r, setParentOfGroup fuel g p s = r → (∃ b, r = .ret b s') ∨ r = .throw s' → Trans A s s' := by
      intro r hr h
      unfold setParentOfGroup at hr
      cases hg : s.groups.find g with
      | none => rw [hg] at hr; subst hr; rcases h with ⟨b, h⟩ | h <;> cases h; exact .refl s
      | some g' =>
        rw [hg] at hr
        simp only at hr
        cases hp : s.groups.find p with
        | none => rw [hp] at hr; subst hr; rcases h with ⟨b, h⟩ | h <;> cases h; exact .refl s
        | some p' =>
          rw [hp] at hr
          simp only at hr
          split at hr
          · subst hr; rcases h with ⟨b, h⟩ | h <;> cases h
          · subst hr; rcases h with ⟨b, h⟩ | h <;> cases h; exact .refl s
          · rename_i hwalk
            subst hr
            rcases h with ⟨b, h⟩ | h
            · obtain ⟨_, h⟩ := ofOption_ret h
              refine .parentOf s s' g' (some p') ⟨_, hg⟩ (fun q hq => by cases hq; exact ⟨_, hp⟩)
                (fun q hq => by cases hq; exact hAr _ _ _ _ rfl hg hp) ?_
                (setParentOfGroupPtr_spec hw.gU hw.ord h)
              intro q hq
              cases hq
              split at hwalk
              · exact .inr ⟨_, hwalk⟩
              · rename_i hc
                exact .inl (by simpa using hc)
            · exact (ofOption_throw h).elim
    rcases h with h | h
    · obtain ⟨a, ha, _⟩ := map_ret h
      exact key _ rfl (.inl ⟨a, ha⟩)
    · exact key _ rfl (.inr (map_throw h))
  | unsetParentOfGroup g =>
    have key : ∀ r, unsetParentOfGroup fuel g s = r → (∃ b, r = .ret b s') ∨ r = .throw s' → Trans A s s' := by
      intro r hr h
      unfold unsetParentOfGroup at hr
      cases hg : s.groups.find g with
      | none => rw [hg] at hr; subst hr; rcases h with ⟨b, h⟩ | h <;> cases h; exact .refl s
      | some g' =>
        rw [hg] at hr
        subst hr
        rcases h with ⟨b, h⟩ | h
        · obtain ⟨_, h⟩ := ofOption_ret h
          exact .parentOf s s' g' none ⟨_, hg⟩ (by simp) (by simp) (by simp) (setParentOfGroupPtr_spec hw.gU hw.ord h)
        · exact (ofOption_throw h).elim
    rcases h with h | h
    · obtain ⟨a, ha, _⟩ := map_ret h
      exact key _ rfl (.inl ⟨a, ha⟩)
    · exact key _ rfl (.inr (map_throw h))
  | setSinkOfGroup g k =>
    have key : ∀ r, setSinkOfGroup fuel g k s = r → (∃ b, r = .ret b s') ∨ r = .throw s' → Trans A s s' := by
      intro r hr h
      unfold setSinkOfGroup getSink at hr
      cases hk : s.sinks.find k with
      | none => rw [hk] at hr; subst hr; rcases h with ⟨b, h⟩ | h <;> cases h; exact .refl s
      | some k' =>
        rw [hk] at hr
        simp only at hr
        cases hg : s.groups.find g with
        | none => rw [hg] at hr; subst hr; rcases h with ⟨b, h⟩ | h <;> cases h; exact .refl s
        | some g' =>
          rw [hg] at hr
          subst hr
          rcases h with ⟨b, h⟩ | h
          · obtain ⟨_, h⟩ := ofOption_ret h
            exact .sinkOf s s' g' (some k') ⟨_, hg⟩ (fun k'' h => by cases h; exact (hw.kLt _ _ hk).1)
              (setSinkOfGroupPtr_spec hw.gU hw.ord h)
          · exact (ofOption_throw h).elim
    rcases h with h | h
    · obtain ⟨a, ha, _⟩ := map_ret h
      exact key _ rfl (.inl ⟨a, ha⟩)
    · exact key _ rfl (.inr (map_throw h))
  | resetSinkOfGroup g =>
    have key : ∀ r, resetSinkOfGroup fuel g s = r → (∃ b, r = .ret b s') ∨ r = .throw s' → Trans A s s' := by
      intro r hr h
      unfold resetSinkOfGroup at hr
      cases hg : s.groups.find g with
      | none => rw [hg] at hr; subst hr; rcases h with ⟨b, h⟩ | h <;> cases h; exact .refl s
      | some g' =>
        rw [hg] at hr
        subst hr
        rcases h with ⟨b, h⟩ | h
        · obtain ⟨_, h⟩ := ofOption_ret h
          exact .sinkOf s s' g' none ⟨_, hg⟩ (by simp) (setSinkOfGroupPtr_spec hw.gU hw.ord h)
        · exact (ofOption_throw h).elim
    rcases h with h | h
    · obtain ⟨a, ha, _⟩ := map_ret h
      exact key _ rfl (.inl ⟨a, ha⟩)
    · exact key _ rfl (.inr (map_throw h))
  | setLevelOfGroup g l =>
    have key : ∀ r, setLevelOfGroup fuel g l s = r → (∃ b, r = .ret b s') ∨ r = .throw s' → Trans A s s' := by
      intro r hr h
      unfold setLevelOfGroup at hr
      cases hg : s.groups.find g with
      | none => rw [hg] at hr; subst hr; rcases h with ⟨b, h⟩ | h <;> cases h; exact .refl s
      | some g' =>
        rw [hg] at hr
        subst hr
        rcases h with ⟨b, h⟩ | h
        · obtain ⟨_, h⟩ := ofOption_ret h
          exact .level s s' g' (some l) ⟨_, hg⟩ (setLevelOfGroupPtr_spec hw.gU hw.ord h)
        · exact (ofOption_throw h).elim
    rcases h with h | h
    · obtain ⟨a, ha, _⟩ := map_ret h
      exact key _ rfl (.inl ⟨a, ha⟩)
    · exact key _ rfl (.inr (map_throw h))
  | resetLevelOfGroup g =>
    have key : ∀ r, resetLevelOfGroup fuel g s = r → (∃ b, r = .ret b s') ∨ r = .throw s' → Trans A s s' := by
      intro r hr h
      unfold resetLevelOfGroup at hr
      cases hg : s.groups.find g with
      | none => rw [hg] at hr; subst hr; rcases h with ⟨b, h⟩ | h <;> cases h; exact .refl s
      | some g' =>
        rw [hg] at hr
        subst hr
        rcases h with ⟨b, h⟩ | h
        · obtain ⟨_, h⟩ := ofOption_ret h
          exact .level s s' g' none ⟨_, hg⟩ (setLevelOfGroupPtr_spec hw.gU hw.ord h)
        · exact (ofOption_throw h).elim
    rcases h with h | h
    · obtain ⟨a, ha, _⟩ := map_ret h
      exact key _ rfl (.inl ⟨a, ha⟩)
    · exact key _ rfl (.inr (map_throw h))
  | setGroupOfLogger l g =>
    rcases h with h | h
    · obtain ⟨a, ha, _⟩ := map_ret h
      unfold setGroupOfLogger getGroup at ha
      split at ha
      · cases ha; exact .refl s
      · rename_i g' hg
        exact onLogger_trans (m := fun _ => .setGroup g') hw (fun _ => rfl) (fun _ _ => hw.gLt _ _ hg) ha
    · have h := map_throw h
      unfold setGroupOfLogger at h
      split at h
      · cases h
      · obtain ⟨b, s1, h1⟩ := onLogger_total l true (fun l => l.setGroup s.grp _) s
        rw [h1] at h; cases h
  | setSinkOfLogger l k =>
    rcases h with h | h
    · obtain ⟨a, ha, _⟩ := map_ret h
      unfold setSinkOfLogger getSink at ha
      split at ha
      · cases ha; exact .refl s
      · rename_i k' hk
        exact onLogger_trans (m := fun _ => .setSink k') hw (fun _ => rfl) (fun _ _ => (hw.kLt _ _ hk).1) ha
    · have h := map_throw h
      unfold setSinkOfLogger at h
      split at h
      · cases h
      · obtain ⟨b, s1, h1⟩ := onLogger_total l true (fun l => l.setSink _) s
        rw [h1] at h; cases h
  | resetSinkOfLogger l =>
    rcases h with h | h
    · obtain ⟨a, ha, _⟩ := map_ret h
      exact onLogger_trans (m := fun i => .setSinkFromGroup (s.lgr i).group) hw (fun _ => rfl) (fun i hi => hw.lgLt i hi) ha
    · have h := map_throw h
      obtain ⟨b, s1, h1⟩ := onLogger_total l false (fun l => l.setSinkFromGroup s.grp l.group) s
      unfold resetSinkOfLogger at h
      rw [h1] at h; cases h
  | setLevelOfLogger l v =>
    rcases h with h | h
    · obtain ⟨a, ha, _⟩ := map_ret h
      exact onLogger_trans (m := fun _ => .setLevel v) hw (fun _ => rfl) (fun _ _ => trivial) ha
    · have h := map_throw h
      obtain ⟨b, s1, h1⟩ := onLogger_total l true (fun l => l.setLevel v) s
      unfold setLevelOfLogger at h
      rw [h1] at h; cases h
  | resetLevelOfLogger l =>
    rcases h with h | h
    · obtain ⟨a, ha, _⟩ := map_ret h
      exact onLogger_trans (m := fun i => .setLevelFromGroup (s.lgr i).group) hw (fun _ => rfl) (fun i hi => hw.lgLt i hi) ha
    · have h := map_throw h
      obtain ⟨b, s1, h1⟩ := onLogger_total l true (fun l => l.setLevelFromGroup s.grp l.group) s
      unfold resetLevelOfLogger at h
      rw [h1] at h; cases h
  | onHandle i m =>
    simp only [step] at h
    split at h
    · rename_i hc
      rcases h with h | h
      · cases h; exact .logger s i m hc.1 hc.2.1 hc.2.2
      · cases h
    · rcases h with h | h
      · cases h; exact .refl s
      · cases h
  | drop i =>
    rcases h with h | h
    · cases h; exact .drop s i
    · cases h

/-! ### shapes -/

theorem LevelSet.shape {g : Nat} {l : Option Level} {s s' : Sys} (h : LevelSet g l s s') (x : Nat) :
    (s'.grp x).name = (s.grp x).name ∧ (s'.grp x).parent = (s.grp x).parent ∧ (s'.grp x).sink = (s.grp x).sink ∧
    (s'.grp x).sinkOv = (s.grp x).sinkOv ∧ (x ≠ g → (s'.grp x).levelOv = (s.grp x).levelOv) := by
  by_cases hx : x = g
  · subst hx; rw [h.self]; simp
  · rcases h.other x hx with h | ⟨_, h⟩ <;> rw [h] <;> simp

theorem LevelSet.lshape {g : Nat} {l : Option Level} {s s' : Sys} (h : LevelSet g l s s') (i : Nat) :
    (s'.lgr i).name = (s.lgr i).name ∧ (s'.lgr i).group = (s.lgr i).group ∧ (s'.lgr i).sink = (s.lgr i).sink ∧
    (s'.lgr i).sinkOv = (s.lgr i).sinkOv ∧ (s'.lgr i).levelOv = (s.lgr i).levelOv ∧
    ((s.lgr i).levelOv = true → s'.lgr i = s.lgr i) := by
  by_cases hc : s.alive i = true ∧ i ∈ s.loggers.map (·.2) ∧ s.registered (s.lgr i).group ∧
    (s.lgr i).levelOv = false ∧ InheritsFrom s.parent s.levelFixed g (s.lgr i).group
  · obtain ⟨a, b, c, d, e⟩ := hc
    rw [h.logger i a b c d e]; simp [d]
  · rw [h.logger_kept i hc]; simp

theorem SinkSet.shape {g : Nat} {k : Option Nat} {s s' : Sys} (h : SinkSet g k s s') (x : Nat) :
    (s'.grp x).name = (s.grp x).name ∧ (s'.grp x).parent = (s.grp x).parent ∧ (s'.grp x).level = (s.grp x).level ∧
    (s'.grp x).levelOv = (s.grp x).levelOv ∧ (x ≠ g → (s'.grp x).sinkOv = (s.grp x).sinkOv) := by
  by_cases hx : x = g
  · subst hx; rw [h.self]; simp
  · rcases h.other x hx with h | ⟨_, h⟩ <;> rw [h] <;> simp

theorem SinkSet.lshape {g : Nat} {k : Option Nat} {s s' : Sys} (h : SinkSet g k s s') (i : Nat) :
    (s'.lgr i).name = (s.lgr i).name ∧ (s'.lgr i).group = (s.lgr i).group ∧ (s'.lgr i).level = (s.lgr i).level ∧
    (s'.lgr i).levelOv = (s.lgr i).levelOv ∧ (s'.lgr i).sinkOv = (s.lgr i).sinkOv ∧
    ((s.lgr i).sinkOv = true → s'.lgr i = s.lgr i) := by
  by_cases hc : s.alive i = true ∧ i ∈ s.loggers.map (·.2) ∧ s.registered (s.lgr i).group ∧
    (s.lgr i).sinkOv = false ∧ InheritsFrom s.parent s.sinkFixed g (s.lgr i).group
  · obtain ⟨a, b, c, d, e⟩ := hc
    rw [h.logger i a b c d e]; simp [d]
  · rw [h.logger_kept i hc]; simp

/-- `Logger::setGroup` with the logger's own group -/
theorem setGroup_own (l : Logger) (h : Nat → Group) :
    l.setGroup h l.group = { l with
      sink := if l.sinkOv then l.sink else followSink l.sink (h l.group).sink,
      level := if l.levelOv then l.level else (h l.group).level } := by
  unfold Logger.setGroup Logger.setSinkFromGroup Logger.setLevelFromGroup followSink
  rcases l with ⟨a, b, c, d, e, f⟩
  cases hs : (h b).sink <;> cases d <;> cases f <;> simp

theorem ParentSet.lshape {g : Nat} {p : Option Nat} {s s' : Sys} (h : ParentSet g p s s') (i : Nat) :
    (s'.lgr i).name = (s.lgr i).name ∧ (s'.lgr i).group = (s.lgr i).group ∧
    (s'.lgr i).levelOv = (s.lgr i).levelOv ∧ (s'.lgr i).sinkOv = (s.lgr i).sinkOv ∧
    ((s.lgr i).levelOv = true → (s'.lgr i).level = (s.lgr i).level) ∧
    ((s.lgr i).sinkOv = true → (s'.lgr i).sink = (s.lgr i).sink) := by
  by_cases hc : s.alive i = true ∧ i ∈ s.loggers.map (·.2) ∧ s.registered (s.lgr i).group ∧
    InheritsFrom (relink s.grp g p) s.bothFixed g (s.lgr i).group
  · obtain ⟨a, b, c, d⟩ := hc
    rw [h.logger i a b c d, setGroup_own]; simp +contextual
  · rw [h.logger_kept i hc]; simp

/-- any property of sinks that all groups have is kept by re-parenting -/
theorem ParentSet.sink_all {g : Nat} {parent : Option Nat} {s s' : Sys} (h : ParentSet g parent s s')
    (Q : Option Nat → Prop) {n : Nat} (hQ : ∀ y, y < n → Q (s.grp y).sink)
    (hpar : ∀ x p, x < n → (s.grp x).parent = some p → p < n) (hg : g < n) (hp : ∀ p, parent = some p → p < n) :
    ∀ x, x < n → Q (s'.grp x).sink := by
  have hrel : ∀ x p, x < n → relink s.grp g parent x = some p → p < n := by
    intro x p hx hr
    unfold relink at hr
    split at hr
    · exact hp p hr
    · split at hr
      · cases hr
      · exact hpar x p hx hr
  have hin : ∀ x, InheritsFrom (relink s.grp g parent) s.bothFixed g x → x < n → Q (s'.grp x).sink := by
    intro x hi
    induction hi with
    | self =>
      intro hx
      rw [h.self]
      unfold reparented inherit
      cases parent with
      | none => exact hQ g hx
      | some p =>
        simp only
        split
        · exact hQ g hx
        · exact hQ p (hp p rfl)
    | @child x p hr hf _ ih =>
      intro hx
      by_cases hxg : x = g
      · subst hxg
        rw [h.self]
        unfold reparented inherit
        cases parent with
        | none => exact hQ x hx
        | some p =>
          simp only
          split
          · exact hQ x hx
          · exact hQ p (hp p rfl)
      · rcases h.other x hxg with h1 | ⟨_, p', h1, h2⟩
        · rw [h1]; exact hQ x hx
        · rw [hr] at h1; cases h1
          rw [h2]
          unfold inherit
          simp only
          split
          · exact hQ x hx
          · exact ih (hrel x p hx hr)
  intro x hx
  by_cases hxg : x = g
  · subst hxg; exact hin x .self hx
  · rcases h.other x hxg with h1 | ⟨h1, _⟩
    · rw [h1]; exact hQ x hx
    · exact hin x h1 hx

/-! ### well-formedness is kept -/

theorem filter_alive {s : Sys} (hw : WF s) :
    Table.Unique (s.loggers.filter fun e => s.alive e.2) ∧
    (∀ k i, Table.find (s.loggers.filter fun e => s.alive e.2) k = some i ↔ s.loggers.find k = some i ∧ s.alive i = true) := by
  refine ⟨Table.filter_unique hw.lU _, ?_⟩
  intro k i
  rw [Table.find_filter hw.lU]
  cases s.loggers.find k with
  | none => simp
  | some j =>
    simp only [Option.bind_some, Option.some.injEq]
    split
    · rename_i hj
      constructor
      · intro h; cases h; exact ⟨rfl, hj⟩
      · rintro ⟨rfl, _⟩; rfl
    · rename_i hj
      constructor
      · intro h; cases h
      · rintro ⟨rfl, h⟩; exact absurd h hj

theorem wf_updated {s : Sys} (hw : WF s) {grp : Nat → Group} {lgr : Nat → Logger}
    (hname : ∀ x, (grp x).name = (s.grp x).name)
    (hp : ∀ x p, x < s.ngroups → (grp x).parent = some p → p < s.ngroups)
    (hk : ∀ x k, x < s.ngroups → (grp x).sink = some k → k < s.nsinks)
    (hl : ∀ i, (lgr i).name = (s.lgr i).name ∧ (lgr i).group = (s.lgr i).group)
    (hlk : ∀ i k, i < s.nloggers → (lgr i).sink = some k → k < s.nsinks) :
    WF { s with grp := grp, lgr := lgr, loggers := s.loggers.filter fun e => s.alive e.2 } := by
  obtain ⟨f1, f2⟩ := filter_alive hw
  exact {
    ord := hw.ord, gU := hw.gU, lU := f1, kU := hw.kU, gLt := hw.gLt
    gName := fun k g h => (hw.gName k g h).imp id fun h => by rw [← h]; exact hname g
    kLt := hw.kLt
    lLt := fun n i h => by
      have := hw.lLt n i ((f2 n i).1 h).1
      exact ⟨this.1, by rw [← this.2]; exact (hl i).1⟩
    live := fun i h => by
      obtain ⟨a, b⟩ := hw.live i h
      exact ⟨a, by show Table.find _ (lgr i).name = _; rw [(hl i).1]; exact (f2 _ _).2 ⟨b, h⟩⟩
    pLt := hp, gsLt := hk
    lgLt := fun i h => by show (lgr i).group < _; rw [(hl i).2]; exact hw.lgLt i h
    lsLt := hlk }

theorem trans_wf {A : Allow} {s s' : Sys} (hw : WF s) (ht : Trans A s s') : WF s' := by
  cases ht with
  | refl => exact hw
  | configured => exact { hw with }
  | erase k i hk hd =>
    have hfind := fun k' => Table.find_erase hw.lU k k'
    exact {
      hw with
      lU := Table.erase_unique hw.lU k
      lLt := fun n j h => by
        have h : (s.loggers.erase k).find n = some j := h
        rw [hfind] at h
        split at h
        · cases h
        · exact hw.lLt n j h
      live := fun j hj => by
        obtain ⟨a, b⟩ := hw.live j hj
        refine ⟨a, ?_⟩
        show (s.loggers.erase k).find _ = _
        rw [hfind]
        split
        · rename_i hc
          rw [hc, hk] at b
          cases b
          have hj : s.alive i = true := hj
          rw [hd] at hj; cases hj
        · exact b }
  | sink name =>
    exact {
      hw with
      kU := Table.put_unique hw.kU _ _
      kLt := fun n k h => by
        rcases put_find h with ⟨rfl, rfl⟩ | h
        · exact ⟨Nat.lt_succ_self _, upd_same _ _ _⟩
        · obtain ⟨a, b⟩ := hw.kLt n k h
          refine ⟨Nat.lt_succ_of_lt a, ?_⟩
          show upd s.sinkName s.nsinks name k = n
          rw [upd_other _ _ (Nat.ne_of_lt a)]; exact b
      gsLt := fun x k hx h => Nat.lt_succ_of_lt (hw.gsLt x k hx h)
      lsLt := fun x k hx h => Nat.lt_succ_of_lt (hw.lsLt x k hx h) }
  | group name parent sink level p k hp hk hl hA =>
    have hU : Table.Unique (if (s.groups.find star).isNone then s.groups.put star s.ngroups else s.groups) := by
      split
      · exact Table.put_unique hw.gU _ _
      · exact hw.gU
    have hfind : ∀ n g, ((if (s.groups.find star).isNone then s.groups.put star s.ngroups else s.groups).put name s.ngroups).find n
        = some g → (g = s.ngroups ∧ (n = star ∨ n = name)) ∨ s.groups.find n = some g := by
      intro n g h
      rcases put_find h with ⟨rfl, rfl⟩ | h
      · exact .inl ⟨rfl, .inr rfl⟩
      · split at h
        · rcases put_find h with ⟨rfl, rfl⟩ | h
          · exact .inl ⟨rfl, .inl rfl⟩
          · exact .inr h
        · exact .inr h
    have hold : ∀ x, x < s.ngroups → upd s.grp s.ngroups (newGroup s name p k level) x = s.grp x :=
      fun x hx => upd_other _ _ (Nat.ne_of_lt hx)
    have hplt : ∀ q, p = some q → q < s.ngroups := by
      intro q hq
      obtain ⟨kn, _, h⟩ := resolve_registered hp hq
      exact hw.gLt _ _ h
    have hklt : ∀ q, k = some q → q < s.nsinks := by
      intro q hq
      obtain ⟨kn, _, h⟩ := resolve_registered hk hq
      exact (hw.kLt _ _ h).1
    exact {
      hw with
      gU := Table.put_unique hU _ _
      gLt := fun n g h => by
        rcases hfind n g h with ⟨rfl, _⟩ | h
        · exact Nat.lt_succ_self _
        · exact Nat.lt_succ_of_lt (hw.gLt n g h)
      gName := fun n g h => by
        show _ ∨ (upd s.grp s.ngroups (newGroup s name p k level) g).name = n
        rcases hfind n g h with ⟨rfl, rfl | rfl⟩ | h
        · exact .inl rfl
        · right; rw [upd_same]; rfl
        · rw [hold g (hw.gLt n g h)]; exact hw.gName n g h
      pLt := fun x q hx h => by
        have h : (upd s.grp s.ngroups (newGroup s name p k level) x).parent = some q := h
        apply Nat.lt_succ_of_lt
        rcases Nat.lt_or_eq_of_le (Nat.le_of_lt_succ hx) with hx | hx
        · rw [hold x hx] at h; exact hw.pLt x q hx h
        · subst hx
          rw [upd_same] at h
          exact hplt q h
      gsLt := fun x q hx h => by
        have h : (upd s.grp s.ngroups (newGroup s name p k level) x).sink = some q := h
        rcases Nat.lt_or_eq_of_le (Nat.le_of_lt_succ hx) with hx | hx
        · rw [hold x hx] at h; exact hw.gsLt x q hx h
        · subst hx
          rw [upd_same] at h
          unfold newGroup at h
          simp only at h
          split at h
          · exact hklt q h
          · rw [Option.bind_eq_some_iff] at h
            obtain ⟨p', h1, h2⟩ := h
            exact hw.gsLt p' q (hplt p' h1) h2
      lgLt := fun i hi => Nat.lt_succ_of_lt (hw.lgLt i hi) }
  | fallback name g hg _ =>
    exact {
      hw with
      gU := Table.put_unique hw.gU _ _
      gLt := fun n g' h => by
        rcases put_find h with ⟨rfl, rfl⟩ | h
        · exact hw.gLt _ _ hg
        · exact hw.gLt n g' h
      gName := fun n g' h => by
        rcases put_find h with ⟨rfl, rfl⟩ | h
        · exact .inl rfl
        · exact hw.gName n g' h }
  | create name g sink level ws hd hg =>
    obtain ⟨m1, m2, m3⟩ := mkLogger_name s name g sink level
    have hold : ∀ i, i < s.nloggers → upd s.lgr s.nloggers (mkLogger s name g sink level) i = s.lgr i :=
      fun i hi => upd_other _ _ (Nat.ne_of_lt hi)
    exact {
      hw with
      lU := Table.put_unique hw.lU _ _
      lLt := fun n i h => by
        show i < s.nloggers + 1 ∧ (upd s.lgr s.nloggers (mkLogger s name g sink level) i).name = n
        rcases put_find h with ⟨rfl, rfl⟩ | h
        · exact ⟨Nat.lt_succ_self _, by rw [upd_same]; exact m1⟩
        · obtain ⟨a, b⟩ := hw.lLt n i h
          exact ⟨Nat.lt_succ_of_lt a, by rw [hold i a]; exact b⟩
      live := fun i h => by
        show i < s.nloggers + 1 ∧ (s.loggers.put name s.nloggers).find
          (upd s.lgr s.nloggers (mkLogger s name g sink level) i).name = some i
        have h : upd s.alive s.nloggers true i = true := h
        by_cases hi : i = s.nloggers
        · subst hi
          refine ⟨Nat.lt_succ_self _, ?_⟩
          rw [upd_same, m1, Table.find_put_self]
        · rw [upd_other _ _ hi] at h
          obtain ⟨a, b⟩ := hw.live i h
          refine ⟨Nat.lt_succ_of_lt a, ?_⟩
          rw [hold i a, Table.find_put_ne]
          · exact b
          · intro hc
            rw [hc] at b
            have := liveLogger_eq.2 ⟨b, h⟩
            rw [hd] at this; cases this
      lgLt := fun i hi => by
        show (upd s.lgr s.nloggers (mkLogger s name g sink level) i).group < s.ngroups
        rcases Nat.lt_or_eq_of_le (Nat.le_of_lt_succ hi) with hi | hi
        · rw [hold i hi]; exact hw.lgLt i hi
        · subst hi; rw [upd_same, m2]; exact hw.regLt hg
      lsLt := fun i k hi h => by
        have h : (upd s.lgr s.nloggers (mkLogger s name g sink level) i).sink = some k := h
        rcases Nat.lt_or_eq_of_le (Nat.le_of_lt_succ hi) with hi | hi
        · rw [hold i hi] at h; exact hw.lsLt i k hi h
        · subst hi
          rw [upd_same] at h
          rcases m3 k h with h | ⟨kn, _, h⟩
          · exact hw.gsLt g k (hw.regLt hg) h
          · exact (hw.kLt _ _ h).1 }
  | logger i m hi ha hv =>
    obtain ⟨c1, c2, c3⟩ := call_shape (s.lgr i) s.grp m
    have hname : ∀ j, (upd s.lgr i ((s.lgr i).call s.grp m) j).name = (s.lgr j).name := by
      intro j
      by_cases hj : j = i
      · subst hj; rw [upd_same]; exact c1
      · rw [upd_other _ _ hj]
    exact {
      hw with
      lLt := fun n j h => by
        obtain ⟨a, b⟩ := hw.lLt n j h
        exact ⟨a, by rw [← b]; exact hname j⟩
      live := fun j h => by
        obtain ⟨a, b⟩ := hw.live j h
        refine ⟨a, ?_⟩
        show s.loggers.find _ = _
        rw [hname]; exact b
      lgLt := fun j hj => by
        show (upd s.lgr i ((s.lgr i).call s.grp m) j).group < s.ngroups
        by_cases hji : j = i
        · subst hji
          rw [upd_same]
          rcases c2 with h | ⟨g, rfl, h⟩
          · rw [h]; exact hw.lgLt j hj
          · rw [h]; exact hv
        · rw [upd_other _ _ hji]; exact hw.lgLt j hj
      lsLt := fun j k hj h => by
        have h : (upd s.lgr i ((s.lgr i).call s.grp m) j).sink = some k := h
        by_cases hji : j = i
        · subst hji
          rw [upd_same] at h
          rcases c3 k h with h | rfl | ⟨g, rfl | rfl, h'⟩ | h
          · exact hw.lsLt j k hj h
          · exact hv
          · exact hw.gsLt g k hv h'
          · exact hw.gsLt g k hv h'
          · exact hw.gsLt _ k (hw.lgLt j hj) h
        · rw [upd_other _ _ hji] at h; exact hw.lsLt j k hj h }
  | drop i =>
    exact {
      hw with
      live := fun j h => by
        have h : upd s.alive i false j = true := h
        by_cases hj : j = i
        · subst hj; rw [upd_same] at h; cases h
        · rw [upd_other _ _ hj] at h; exact hw.live j h }
  | level _ g l hg h =>
    rw [h.rest]
    apply wf_updated hw
    · intro x; exact (h.shape x).1
    · intro x p hx hp; rw [(h.shape x).2.1] at hp; exact hw.pLt x p hx hp
    · intro x k hx hk; rw [(h.shape x).2.2.1] at hk; exact hw.gsLt x k hx hk
    · intro i; exact ⟨(h.lshape i).1, (h.lshape i).2.1⟩
    · intro i k hi hk; rw [(h.lshape i).2.2.1] at hk; exact hw.lsLt i k hi hk
  | sinkOf _ g k hg hk h =>
    have hnew : ∀ q, newSink s.grp g k = some q → q < s.nsinks := by
      intro q hq
      unfold newSink at hq
      split at hq
      · cases hq; exact hk _ rfl
      · rename_i p hp
        exact hw.gsLt p q (hw.pLt g p (hw.regLt hg) hp) hq
      · exact hw.gsLt g q (hw.regLt hg) hq
    rw [h.rest]
    apply wf_updated hw
    · intro x; exact (h.shape x).1
    · intro x p hx hp; rw [(h.shape x).2.1] at hp; exact hw.pLt x p hx hp
    · intro x q hx hq
      by_cases hxg : x = g
      · subst hxg; rw [h.self] at hq; exact hnew q hq
      · rcases h.other x hxg with h1 | ⟨_, h1⟩
        · rw [h1] at hq; exact hw.gsLt x q hx hq
        · rw [h1] at hq; exact hnew q hq
    · intro i; exact ⟨(h.lshape i).1, (h.lshape i).2.1⟩
    · intro i q hi hq
      by_cases hc : s.alive i = true ∧ i ∈ s.loggers.map (·.2) ∧ s.registered (s.lgr i).group ∧
        (s.lgr i).sinkOv = false ∧ InheritsFrom s.parent s.sinkFixed g (s.lgr i).group
      · obtain ⟨a, b, c, d, e⟩ := hc
        rw [h.logger i a b c d e] at hq
        simp only [followSink] at hq
        split at hq
        · exact hnew q hq
        · exact hw.lsLt i q hi hq
      · rw [h.logger_kept i hc] at hq; exact hw.lsLt i q hi hq
  | parentOf _ g p hg hp hA hwalk h =>
    have hplt : ∀ q, p = some q → q < s.ngroups := fun q hq => hw.regLt (hp q hq)
    have hks : ∀ x, x < s.ngroups → ∀ k, (s'.grp x).sink = some k → k < s.nsinks :=
      h.sink_all (fun o => ∀ k, o = some k → k < s.nsinks) (fun y hy k hk => hw.gsLt y k hy hk) hw.pLt (hw.regLt hg) hplt
    rw [h.rest]
    apply wf_updated hw
    · intro x; exact (h.shape x).1
    · intro x q hx hq
      rw [(h.shape x).2.2.2.1] at hq
      unfold relink at hq
      split at hq
      · exact hplt q hq
      · split at hq
        · cases hq
        · exact hw.pLt x q hx hq
    · intro x k hx hk; exact hks x hx k hk
    · intro i; exact ⟨(h.lshape i).1, (h.lshape i).2.1⟩
    · intro i q hi hq
      by_cases hc : s.alive i = true ∧ i ∈ s.loggers.map (·.2) ∧ s.registered (s.lgr i).group ∧
        InheritsFrom (relink s.grp g p) s.bothFixed g (s.lgr i).group
      · obtain ⟨a, b, c, d⟩ := hc
        rw [h.logger i a b c d, setGroup_own] at hq
        simp only [followSink] at hq
        split at hq
        · exact hw.lsLt i q hi hq
        · split at hq
          · exact hks _ (hw.regLt c) q hq
          · exact hw.lsLt i q hi hq
      · rw [h.logger_kept i hc] at hq; exact hw.lsLt i q hi hq

theorem new_wf (debug : Bool) (ord : List Nat → List Nat) (ho : ∀ l, (ord l).Perm l) : WF (new debug ord) where
  ord := ho
  gU := by simp [new, Table.Unique]
  lU := by simp [new, Table.Unique]
  kU := by simp [new, Table.Unique]
  gLt := fun k g h => by simp [new, Table.find] at h
  gName := fun k g h => by simp [new, Table.find] at h
  kLt := fun n k h => by
    have : (n, k) ∈ [(star, 0)] := Table.find_some_mem h
    simp at this
    obtain ⟨rfl, rfl⟩ := this
    exact ⟨by simp [new], rfl⟩
  lLt := fun k g h => by simp [new, Table.find] at h
  live := fun i h => by simp [new] at h
  pLt := fun x p hx => by simp [new] at hx
  gsLt := fun x p hx => by simp [new] at hx
  lgLt := fun x hx => by simp [new] at hx
  lsLt := fun x p hx => by simp [new] at hx

/-- only `makeGroup` and `setFallbackGroup` change which groups are registered -/
theorem step_groups {fuel : Nat} {s s' : Sys} {op : Op} {v : Val} (hw : WF s) (h1 : ∀ n p k l, op ≠ .makeGroup n p k l)
    (h2 : ∀ n, op ≠ .setFallbackGroup n) (h : step fuel s op = .ret v s' ∨ step fuel s op = .throw s') :
    s'.groups = s.groups ∧ s'.ngroups = s.ngroups := by
  have ht : Trans ⟨fun _ _ => True, fun _ _ => False, False, True⟩ s s' :=
    step_trans hw (fun _ _ _ _ _ _ _ => trivial) (fun n p k l _ _ he => absurd he (h1 n p k l)) (fun n he => absurd he (h2 n)) h
  cases ht with
  | refl => exact ⟨rfl, rfl⟩
  | configured => exact ⟨rfl, rfl⟩
  | erase k i hk hd => exact ⟨rfl, rfl⟩
  | sink name => exact ⟨rfl, rfl⟩
  | group name parent sink level p k hp hk hl hA => exact hA.elim
  | fallback name g hg hA => exact hA.elim
  | create name g sink level ws hd hg => exact ⟨rfl, rfl⟩
  | logger i m hi ha hv => exact ⟨rfl, rfl⟩
  | drop i => exact ⟨rfl, rfl⟩
  | level _ g l hg h => rw [h.rest]; exact ⟨rfl, rfl⟩
  | sinkOf _ g k hg hk h => rw [h.rest]; exact ⟨rfl, rfl⟩
  | parentOf _ g p hg hp hA hwalk h => rw [h.rest]; exact ⟨rfl, rfl⟩

end System
end Soralog
