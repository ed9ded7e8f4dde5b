import Verif.Proofs.YamlDoc
/-!
# A document is a sequence of calls
-/
namespace Soralog
namespace Yaml

open Soralog.System

/-- the calls were made and nothing else has changed -/
structure Does (F : Nat) (ops : List Op) (s s' : St) : Prop where
  calls : Performed F ops s.sys s'.sys
  specs : s'.specs = s.specs
  openLog : s'.syslogOpen = s.syslogOpen

theorem Performed.append {F : Nat} {a b : List Op} {s s1 s2 : Sys} (h1 : Performed F a s s1) (h2 : Performed F b s1 s2) :
    Performed F (a ++ b) s s2 := by
  induction h1 with
  | nil => exact h2
  | cons h _ ih => exact .cons h (ih h2)

theorem Does.append {F : Nat} {a b : List Op} {s s1 s2 : St} (h1 : Does F a s s1) (h2 : Does F b s1 s2) : Does F (a ++ b) s s2 :=
  ⟨h1.calls.append h2.calls, h2.specs.trans h1.specs, h2.openLog.trans h1.openLog⟩

theorem Does.nil {F : Nat} (s : St) : Does F [] s s := ⟨.nil, rfl, rfl⟩

theorem does_call {F : Nat} {op : Op} {s s' : St} (h : call F op s = .ok () s') : Does F [op] s s' := by
  unfold call at h
  cases hs : step F s.sys op with
  | ret v y => rw [hs] at h; cases h; exact ⟨.cons hs .nil, rfl, rfl⟩
  | throw y => rw [hs] at h; cases h
  | ub => rw [hs] at h; cases h
  | diverge => rw [hs] at h; cases h

theorem bind_ok {α β : Type} {m : M α} {k : α → M β} {b : β} {s s' : St} (h : (m >>= k) s = .ok b s') :
    ∃ a s1, m s = .ok a s1 ∧ k a s1 = .ok b s' := by
  rw [bind_def] at h
  cases hm : m s with
  | ok a s1 => rw [hm] at h; exact ⟨a, s1, rfl, h⟩
  | throw s1 => rw [hm] at h; cases h
  | ub => rw [hm] at h; cases h
  | diverge => rw [hm] at h; cases h

theorem does_applyGroup {F : Nat} {g : GroupNode} {parent : Option Text} {s s' : St} (h : applyGroup F g parent s = .ok () s') :
    Does F (g.calls parent (s.sys.groups.find g.name).isSome) s s' := by
  have hfb : ∀ {s s' : St}, (if g.isFallback then call F (.setFallbackGroup g.name) else pure () : M Unit) s = .ok () s' →
      Does F (if g.isFallback then [.setFallbackGroup g.name] else []) s s' := by
    intro s s' h
    cases hf : g.isFallback with
    | false => rw [hf] at h; cases h; exact .nil _
    | true => rw [hf] at h; exact does_call h
  rw [applyGroup_eq] at h
  unfold GroupNode.calls
  unfold getGroup at h
  cases hg : s.sys.groups.find g.name with
  | none =>
    rw [hg] at h
    obtain ⟨_, s1, h1, h2⟩ := bind_ok h
    exact (does_call h1).append (hfb h2)
  | some x =>
    rw [hg] at h
    obtain ⟨_, s1, h1, h2⟩ := bind_ok h
    refine Does.append (s1 := s1) ?_ (hfb h2)
    unfold updateGroup at h1
    obtain ⟨_, s2, h3, h4⟩ := bind_ok h1
    obtain ⟨_, s3, h5, h6⟩ := bind_ok h4
    refine Does.append (s1 := s3) (Does.append (s1 := s2) ?_ ?_) ?_
    · cases parent with
      | none => cases h3; exact .nil _
      | some p => exact does_call h3
    · cases hk : g.sink with
      | none => rw [hk] at h5; cases h5; exact .nil _
      | some k => rw [hk] at h5; exact does_call h5
    · cases hk : g.level with
      | none => rw [hk] at h6; cases h6; exact .nil _
      | some k => rw [hk] at h6; exact does_call h6

/-- the nodes were carried out and nothing else has changed -/
structure Carries (F : Nat) (D : List (Option Text × GroupNode)) (s s' : St) : Prop where
  calls : Carried F D s.sys s'.sys
  specs : s'.specs = s.specs
  openLog : s'.syslogOpen = s.syslogOpen

theorem Carried.append {F : Nat} {a b : List (Option Text × GroupNode)} {s s1 s2 : Sys} (h1 : Carried F a s s1) (h2 : Carried F b s1 s2) :
    Carried F (a ++ b) s s2 := by
  induction h1 with
  | nil => exact h2
  | cons h _ ih => exact .cons h (ih h2)

theorem Carries.append {F : Nat} {a b : List (Option Text × GroupNode)} {s s1 s2 : St} (h1 : Carries F a s s1) (h2 : Carries F b s1 s2) :
    Carries F (a ++ b) s s2 :=
  ⟨h1.calls.append h2.calls, h2.specs.trans h1.specs, h2.openLog.trans h1.openLog⟩

theorem Carries.quiet {F : Nat} {s s' : St} (h : Quiet s s') : Carries F [] s s' := by
  refine ⟨?_, h.2.1, h.2.2⟩
  rw [h.1]; exact .nil

theorem Quiet.carries {F : Nat} {D : List (Option Text × GroupNode)} {s t s' : St} (h : Quiet s t) (hc : Carries F D t s') :
    Carries F D s s' := by
  have := (Carries.quiet (F := F) h).append hc
  exact this

theorem carries_groups (W : World) (F f : Nat) : ∀ (parent : Option Text) (items : List Nat) (i : Nat) (s s' : St),
    parent ≠ some star → parseGroupList W (parseGroup W F f parent) i items s = .ok () s' →
    Carries F (declaredGroups W s.sys.sinks f parent items) s s' := by
  induction f with
  | zero =>
    intro parent items
    induction items with
    | nil => intro i s s' _ h; cases h; exact .quiet (.refl _)
    | cons n ns ih =>
      intro i s s' hp h
      unfold parseGroupList at h
      obtain ⟨_, s1, h1, h2⟩ := bind_ok h
      unfold parseGroupItem at h1
      have ih := ih (i + 1) s1 s' hp h2
      cases hn : W.node n with
      | map e => rw [hn] at h1; cases h1
      | _ =>
        rw [hn] at h1
        cases h1
        exact Quiet.carries (t := { s with errors := s.errors ++ [.groupNotMap i], hasError := true }) ⟨rfl, rfl, rfl⟩ ih
  | succ f ihf =>
    intro parent items
    induction items with
    | nil => intro i s s' _ h; cases h; exact .quiet (.refl _)
    | cons n ns ih =>
      intro i s s' hp h
      unfold parseGroupList at h
      obtain ⟨_, s1, h1, h2⟩ := bind_ok h
      have ih := ih (i + 1) s1 s' hp h2
      have hss : s1.sys.sinks = s.sys.sinks := by
        unfold parseGroupItem at h1
        cases hn : W.node n with
        | map e =>
          rw [hn] at h1
          simp only at h1
          have htri := tri_parseGroup (P := SameSinks) W F (f + 1) i e parent hp s
          rw [h1] at htri
          exact htri.1
        | _ => rw [hn] at h1; cases h1; rfl
      rw [hss] at ih
      have hsplit : declaredGroups W s.sys.sinks (f + 1) parent (n :: ns) =
          declaredGroups W s.sys.sinks (f + 1) parent [n] ++ declaredGroups W s.sys.sinks (f + 1) parent ns := by
        simp only [declaredGroups, List.flatMap_cons, List.flatMap_nil, List.append_nil]
      rw [hsplit]
      refine Carries.append (s1 := s1) ?_ ih
      simp only [declaredGroups, List.flatMap_cons, List.flatMap_nil, List.append_nil]
      unfold parseGroupItem at h1
      cases hn : W.node n with
      | map e =>
        rw [hn] at h1
        simp only [parseGroup_succ] at h1
        obtain ⟨o, s2, h3, h4⟩ := bind_ok h1
        obtain ⟨s2', hq, e2⟩ := read_readGroup W i e parent s
        rw [e2] at h3
        simp only at h3 ⊢
        cases hg : groupAt W e parent s.sys.sinks with
        | none => rw [hg] at h3; cases h3
        | some o' =>
          rw [hg] at h3
          simp only [give] at h3
          cases h3
          cases o with
          | none => cases h4; exact .quiet hq
          | some g =>
            simp only [afterRead] at h4
            by_cases hstar : g.name = star
            · simp only [if_pos hstar] at h4 ⊢
              cases h4
              exact .quiet (hq.trans ⟨rfl, rfl, rfl⟩)
            · simp only [if_neg hstar] at h4 ⊢
              obtain ⟨_, s3, h5, h6⟩ := bind_ok h4
              have hd := does_applyGroup h5
              have hs3 : s3.sys.sinks = s.sys.sinks := by
                have htri2 := tri_applyGroup (P := SameSinks) (W := W) (F := F) (g := g) (entries := e) (parent := parent)
                  (fun _ _ _ _ ho h => (step_sinks ho.1 ho.2 h).2.1) hstar
                  ((tri_readGroup (P := SameSinks) W (fun _ => (Groups.noName (W := W) (F := F) _)) i e parent s |> fun h3 => by
                      rw [e2] at h3
                      simp only [hg, give] at h3
                      exact h3.2 g rfl)) hp s2
                rw [h5] at htri2
                have h7 : s3.sys.sinks = s2.sys.sinks := htri2.1
                rw [h7, hq.1]
              have hone : Carries F [(parent, g)] s s3 := by
                refine Quiet.carries hq ⟨.cons hd.calls .nil, hd.specs, hd.openLog⟩
              refine hone.append (b := match g.children with
                | some cs => declaredGroups W s.sys.sinks f (some g.name) cs
                | none => []) (s1 := s3) ?_
              cases hc : g.children with
              | none => rw [hc] at h6; cases h6; exact .quiet (.refl _)
              | some cs =>
                rw [hc] at h6
                have := ihf (some g.name) cs 0 s3 s1 (fun h => hstar (Option.some.inj h)) h6
                rw [hs3] at this
                exact this
      | _ =>
        rw [hn] at h1
        cases h1
        exact .quiet ⟨rfl, rfl, rfl⟩

/-! ### the whole document -/

theorem reading_ok {α : Type} {m : M α} {r : Sys → Option α} (h : Reading m r) {s s' : St} {a : α} (he : m s = .ok a s') :
    Quiet s s' := by
  obtain ⟨s1, h1, e1⟩ := h s
  rw [e1] at he
  cases hr : r s.sys with
  | none => rw [hr] at he; cases he
  | some b => rw [hr] at he; cases he; exact h1

theorem error_ok {p : Problem} {s s' : St} (h : error p s = .ok () s') : s'.hasError = true := by cases h; rfl

/-- the phases of a document that is processed to its end -/
theorem parse_ok {W : World} {F : Nat} {root : Node} {s s' : St} (h : parse W F root s = .ok () s') :
    (∀ e, root = .map e → ∃ s1 s2 s3, Quiet s s1 ∧ (parseSinkList W 0 (listAt W e "sinks".toList) s1 = .ok () s2) ∧ Quiet s2 s3 ∧
      (s2.hasError = true → s3.hasError = true) ∧
      parseGroupList W (parseGroup W F F none) 0 (listAt W e "groups".toList) s3 = .ok () s') ∧
    ((∀ e, root ≠ .map e) → Quiet s s') := by
  unfold parse at h
  cases root with
  | map e =>
    refine ⟨fun e' he => ?_, fun hn => absurd rfl (hn e)⟩
    cases he
    obtain ⟨_, s1, h1, h2⟩ := bind_ok h
    obtain ⟨_, s2, h3, h4⟩ := bind_ok h2
    obtain ⟨_, s3, h5, h6⟩ := bind_ok h4
    have q1 : Quiet s s1 := by
      split at h1
      · exact reading_ok (Reading.error _) h1
      · cases h1; exact .refl _
    have q2 : Quiet s1 s2 := reading_ok (read_checkKeys W _ _ _) h3
    unfold listAt
    -- sinks
    have hs : ∃ sa sb, Quiet s sa ∧ parseSinkList W 0 (match prop W e "sinks".toList with | some (.seq items) => items | _ => []) sa = .ok () sb ∧
        Quiet sb s3 ∧ (sb.hasError = true → s3.hasError = true) := by
      cases hp : prop W e "sinks".toList with
      | none => rw [hp] at h5; cases h5; exact ⟨s2, s2, q1.trans q2, rfl, .refl _, id⟩
      | some n =>
        rw [hp] at h5
        cases n with
        | seq items => exact ⟨s2, s3, q1.trans q2, h5, .refl _, id⟩
        | null => exact ⟨s2, s2, q1.trans q2, rfl, reading_ok (Reading.error _) h5, fun _ => error_ok h5⟩
        | scalar t => exact ⟨s2, s2, q1.trans q2, rfl, reading_ok (Reading.error _) h5, fun _ => error_ok h5⟩
        | map t => exact ⟨s2, s2, q1.trans q2, rfl, reading_ok (Reading.error _) h5, fun _ => error_ok h5⟩
    obtain ⟨sa, sb, qa, ha, qb, eb⟩ := hs
    have hg : ∃ sc, Quiet s3 sc ∧ (s3.hasError = true → sc.hasError = true) ∧ parseGroupList W (parseGroup W F F none) 0
        (match prop W e "groups".toList with | some (.seq items) => items | _ => []) sc = .ok () s' := by
      cases hp : prop W e "groups".toList with
      | none => rw [hp] at h6; cases h6; exact ⟨_, .refl _, id, rfl⟩
      | some n =>
        rw [hp] at h6
        cases n with
        | seq items => exact ⟨s3, .refl _, id, h6⟩
        | null => exact ⟨s', reading_ok (Reading.error _) h6, fun _ => error_ok h6, rfl⟩
        | scalar t => exact ⟨s', reading_ok (Reading.error _) h6, fun _ => error_ok h6, rfl⟩
        | map t => exact ⟨s', reading_ok (Reading.error _) h6, fun _ => error_ok h6, rfl⟩
    obtain ⟨sc, qc, ec, hc⟩ := hg
    exact ⟨sa, sb, sc, qa, ha, qb.trans qc, fun h => ec (eb h), hc⟩
  | _ =>
    exact ⟨fun e' he => (by cases he), fun _ => reading_ok (Reading.error _) h⟩

theorem runOn_ok {W : World} {F root : Nat} {p r : Result} {s s' : St} (h : runOn W F (.document root) p s = .ok r s') :
    ∃ s1 s2, Quiet s s1 ∧ parse W F (W.node root) s1 = .ok () s2 ∧ Quiet s2 s' ∧ s' = s2 ∧ s1.errors = [] ∧ s1.hasError = false ∧
      s1.hasWarning = false ∧
      r = ⟨p.error || s2.hasError, p.warning || s2.hasWarning, p.message ++
        if s2.hasError || s2.hasWarning then
          "I: Some problems are found in config:\n".toList ++ (s2.errors.map Problem.text).flatten else []⟩ := by
  unfold runOn at h
  obtain ⟨_, s1, h1, h2⟩ := bind_ok h
  obtain ⟨_, s2, h3, h4⟩ := bind_ok h2
  cases h1
  cases h4
  exact ⟨{ s with errors := [], hasError := false, hasWarning := false }, s', ⟨rfl, rfl, rfl⟩, h3, .refl _, rfl, rfl, rfl, rfl, rfl⟩

/-- the sinks are the same -/
def KeepSinks (s s' : St) : Prop :=
  s'.sys.nsinks = s.sys.nsinks ∧ s'.sys.sinks = s.sys.sinks ∧ s'.sys.sinkName = s.sys.sinkName

instance : Pre KeepSinks where
  refl _ := ⟨rfl, rfl, rfl⟩
  trans h1 h2 := ⟨h2.1.trans h1.1, h2.2.1.trans h1.2.1, h2.2.2.trans h1.2.2⟩

instance : Reads KeepSinks where
  error _ _ _ := fun _ => ⟨⟨rfl, rfl, rfl⟩, trivial⟩
  warning _ _ _ := fun _ => ⟨⟨rfl, rfl, rfl⟩, trivial⟩

instance (W : World) (F : Nat) : Groups W F KeepSinks where
  noName _ := fun _ => ⟨⟨rfl, rfl, rfl⟩, trivial⟩
  apply h1 h2 h3 := tri_applyGroup (fun _ _ _ _ ho h => step_sinks ho.1 ho.2 h) h1 h2 h3

theorem keepSinks_groups {W : World} {F f i : Nat} {parent : Option Text} {items : List Nat} {s s' : St} (hp : parent ≠ some star)
    (h : parseGroupList W (parseGroup W F f parent) i items s = .ok () s') : KeepSinks s s' := by
  induction items generalizing i s with
  | nil => cases h; exact Pre.refl (P := KeepSinks) _
  | cons n ns ih =>
    unfold parseGroupList at h
    obtain ⟨_, s1, h1, h2⟩ := bind_ok h
    refine Pre.trans (P := KeepSinks) (b := s1) ?_ (ih h2)
    unfold parseGroupItem at h1
    cases hn : W.node n with
    | map e =>
      rw [hn] at h1
      simp only at h1
      have htri := tri_parseGroup (P := KeepSinks) W F f i e parent hp s
      rw [h1] at htri
      exact htri.1
    | _ => rw [hn] at h1; cases h1; exact ⟨rfl, rfl, rfl⟩

/-! ### the specification of documents determines what is declared -/

theorem Declares.unique {W : World} {e : List (Nat × Nat)} {d d' : Text × Decl} (h : Declares W e d) (h' : Declares W e d') : d = d' := by
  cases h with
  | console hn hs ht =>
    cases h' with
    | console hn' hs' ht' =>
      cases Option.some.inj (hn.symm.trans hn')
      rfl
    | file hn' hs' ht' hp' => exact absurd (Option.some.inj (ht.symm.trans ht')) (by decide)
    | syslog hn' hs' ht' hp' => exact absurd (Option.some.inj (ht.symm.trans ht')) (by decide)
    | multi hn' hs' ht' hi' hm' => exact absurd (Option.some.inj (ht.symm.trans ht')) (by decide)
  | file hn hs ht hp =>
    cases h' with
    | console hn' hs' ht' => exact absurd (Option.some.inj (ht.symm.trans ht')) (by decide)
    | file hn' hs' ht' hp' =>
      cases Option.some.inj (hn.symm.trans hn')
      cases Option.some.inj (hp.symm.trans hp')
      rfl
    | syslog hn' hs' ht' hp' => exact absurd (Option.some.inj (ht.symm.trans ht')) (by decide)
    | multi hn' hs' ht' hi' hm' => exact absurd (Option.some.inj (ht.symm.trans ht')) (by decide)
  | syslog hn hs ht hp =>
    cases h' with
    | console hn' hs' ht' => exact absurd (Option.some.inj (ht.symm.trans ht')) (by decide)
    | file hn' hs' ht' hp' => exact absurd (Option.some.inj (ht.symm.trans ht')) (by decide)
    | syslog hn' hs' ht' hp' =>
      cases Option.some.inj (hn.symm.trans hn')
      cases Option.some.inj (hp.symm.trans hp')
      rfl
    | multi hn' hs' ht' hi' hm' => exact absurd (Option.some.inj (ht.symm.trans ht')) (by decide)
  | multi hn hs ht hi hm =>
    cases h' with
    | console hn' hs' ht' => exact absurd (Option.some.inj (ht.symm.trans ht')) (by decide)
    | file hn' hs' ht' hp' => exact absurd (Option.some.inj (ht.symm.trans ht')) (by decide)
    | syslog hn' hs' ht' hp' => exact absurd (Option.some.inj (ht.symm.trans ht')) (by decide)
    | multi hn' hs' ht' hi' hm' =>
      cases Option.some.inj (hn.symm.trans hn')
      have h3 := Option.some.inj (hi.symm.trans hi')
      cases h3
      cases Option.some.inj (hm.symm.trans hm')
      rfl

theorem Listed.unique {W : World} {items : List Nat} {ds ds' : List (Text × Decl)} (h : Listed W items ds) (h' : Listed W items ds') :
    ds = ds' := by
  induction h generalizing ds' with
  | nil => cases h'; rfl
  | use h _ ih =>
    cases h' with
    | use h' hs' =>
      obtain ⟨e, he, hd⟩ := h
      obtain ⟨e', he', hd'⟩ := h'
      rw [he] at he'; cases he'
      rw [hd.unique hd', ih hs']
    | skip h' hs' => exact absurd h (h' _)
  | skip h _ ih =>
    cases h' with
    | use h' hs' => exact absurd h' (h _)
    | skip h' hs' => exact ih hs'

theorem UsableGroup.unique {W : World} {t : Table} {p : Option Text} {e : List (Nat × Nat)} {g g' : GroupNode}
    (h : UsableGroup W t p e g) (h' : UsableGroup W t p e g') : g = g' := by
  have e1 : g.name = g'.name := Option.some.inj (h.name.symm.trans h'.name)
  have e2 : g.isFallback = g'.isFallback := by
    have a := h.fallback
    have b := h'.fallback
    cases hp : prop W e "is_fallback".toList with
    | none => rw [hp] at a b; exact a.trans b.symm
    | some n =>
      rw [hp] at a b
      cases n with
      | scalar x => exact Option.some.inj (a.symm.trans b)
      | null => exact a.elim
      | map x => exact a.elim
      | seq x => exact a.elim
  have e3 : g.sink = g'.sink := by
    have a := h.sink
    have b := h'.sink
    cases hp : prop W e "sink".toList with
    | none => rw [hp] at a b; exact a.trans b.symm
    | some n =>
      rw [hp] at a b
      cases n with
      | scalar x => exact a.1.trans b.1.symm
      | null => exact a.elim
      | map x => exact a.elim
      | seq x => exact a.elim
  have e4 : g.level = g'.level := h.level.trans h'.level.symm
  have e5 : g.children = g'.children := by
    have a := h.children
    have b := h'.children
    cases hp : prop W e "children".toList with
    | none => rw [hp] at a b; exact a.trans b.symm
    | some n =>
      rw [hp] at a b
      cases n with
      | scalar x => exact a.elim
      | null => exact a.trans b.symm
      | map x => exact a.elim
      | seq x => exact a.trans b.symm
  cases g; cases g'
  simp only at e1 e2 e3 e4 e5
  subst e1 e2 e3 e4 e5
  rfl

theorem Nests.unique {W : World} {t : Table} {p : Option Text} {items : List Nat} {D D' : List (Option Text × GroupNode)}
    (h : Nests W t p items D) (h' : Nests W t p items D') : D = D' := by
  induction h generalizing D' with
  | nil => cases h'; rfl
  | use hn hu hc hr ihc ihr =>
    cases h' with
    | use hn' hu' hc' hr' =>
      rw [hn] at hn'; cases hn'
      cases hu.unique hu'
      rw [ihc hc', ihr hr']
    | skip h' hr' => exact absurd hu (h' _ _ hn)
  | skip h hr ih =>
    cases h' with
    | use hn' hu' hc' hr' => exact absurd hu' (h _ _ hn')
    | skip h' hr' => exact ih hr'

theorem Performed.unique {F : Nat} {ops : List Op} {s a b : Sys} (h : Performed F ops s a) (h' : Performed F ops s b) : a = b := by
  induction h with
  | nil => cases h'; rfl
  | cons h _ ih =>
    cases h' with
    | cons h' hs' => rw [h] at h'; cases h'; exact ih hs'

/-- what is carried out does not depend on where the children are -/
theorem Carried.unique {F : Nat} {D D' : List (Option Text × GroupNode)} {s a b : Sys} (h : Carried F D s a) (h' : Carried F D' s b)
    (hD : D.map (fun d => (d.1, { d.2 with children := none })) = D'.map fun d => (d.1, { d.2 with children := none })) : a = b := by
  induction h generalizing D' with
  | nil =>
    cases D' with
    | nil => cases h'; rfl
    | cons _ _ => cases hD
  | @cons p g D s s1 s2 h _ ih =>
    cases h' with
    | nil => cases hD
    | @cons p' g' D' _ s1' s2' h' hs' =>
      simp only [List.map_cons, List.cons.injEq, Prod.mk.injEq, GroupNode.mk.injEq, and_true] at hD
      obtain ⟨⟨rfl, h1, h2, h3, h4⟩, h5⟩ := hD
      have hc : ∀ k, g.calls p k = g'.calls p k := by
        intro k
        simp only [GroupNode.calls, h1, h2, h3, h4]
      rw [hc, h1] at h
      cases h.unique h'
      exact ih hs' h5

/-! ### nodes left out -/

theorem sink_useless_of_ok {W : World} {items : List Nat} {i : Nat} {s s' : St} (h : parseSinkList W i items s = .ok () s')
    {n : Nat} (hn : n ∈ items) (hd : ∀ d, ¬ NodeDeclares W n d) : SinkUseless W n := by
  induction items generalizing i s with
  | nil => cases hn
  | cons m ms ih =>
    unfold parseSinkList at h
    obtain ⟨_, sm, hm1, hm2⟩ := bind_ok h
    rcases List.mem_cons.1 hn with rfl | hn
    · obtain ⟨s1, h1, e1⟩ := creates_item W i n s
      rw [e1] at hm1
      unfold readItem at hm1
      unfold SinkUseless
      cases hno : W.node n with
      | map e =>
        rw [hno] at hm1
        simp only at hm1 ⊢
        cases hr : readSink W e with
        | none => rw [hr] at hm1; cases hm1
        | some o =>
          cases o with
          | none => rfl
          | some nd =>
            obtain ⟨nm, d⟩ := nd
            rw [hr] at hm1
            simp only at hm1
            rcases createSink_cases W nm (d.resolve s.sys.sinks) s1 with hc | ⟨ha, b, hc⟩
            · rw [hc] at hm1; cases hm1
            · exact absurd ⟨e, hno, readSink_declares hr (.inl fun c hc => ha c (by rw [resolve_cfg]; exact hc))⟩ (hd (nm, d))
      | _ => trivial
    · exact ih hm2 hn

theorem group_useless_of_ok {W : World} {F f : Nat} {parent : Option Text} (hp : parent ≠ some star) {items : List Nat} {i : Nat}
    {s s' : St} (h : parseGroupList W (parseGroup W F (f + 1) parent) i items s = .ok () s')
    {n : Nat} (hn : n ∈ items) (hd : ∀ m g, W.node n = .map m → ¬ UsableGroup W s.sys.sinks parent m g) :
    GroupUseless W parent s.sys.sinks n := by
  induction items generalizing i s with
  | nil => cases hn
  | cons m ms ih =>
    unfold parseGroupList at h
    obtain ⟨_, sm, hm1, hm2⟩ := bind_ok h
    rcases List.mem_cons.1 hn with rfl | hn
    · unfold GroupUseless
      unfold parseGroupItem at hm1
      cases hno : W.node n with
      | map e =>
        rw [hno] at hm1
        simp only [parseGroup_succ] at hm1 ⊢
        obtain ⟨o, s2, h3, h4⟩ := bind_ok hm1
        obtain ⟨s2', hq, e2⟩ := read_readGroup W i e parent s
        rw [e2] at h3
        simp only at h3
        cases hg : groupAt W e parent s.sys.sinks with
        | none => rw [hg] at h3; cases h3
        | some o =>
          cases o with
          | none => exact .inl rfl
          | some g =>
            by_cases hs : g.name = star
            · exact .inr ⟨g, rfl, hs⟩
            · exact absurd (groupAt_usable hg hs) (hd e g hno)
      | _ => trivial
    · have hss : sm.sys.sinks = s.sys.sinks := (keepSinks_groups hp (items := [m]) (i := i) (s := s) (s' := sm) (by
        unfold parseGroupList
        rw [bind_def, hm1]
        rfl)).2.1
      have := ih hm2 hn (by rw [hss]; exact hd)
      rw [hss] at this
      exact this

theorem parse_run {W : World} {F : Nat} {e : List (Nat × Nat)} {sinks groups : List Nat}
    (h1 : prop W e "sinks".toList = some (.seq sinks)) (h2 : prop W e "groups".toList = some (.seq groups))
    (hkeys : ∀ x ∈ e, (asText W x.1).isSome) (s : St) :
    ∃ s1, Quiet s s1 ∧ parse W F (.map e) s =
      (parseSinkList W 0 sinks >>= fun _ => parseGroupList W (parseGroup W F F none) 0 groups) s1 := by
  obtain ⟨s1, q1, e1⟩ := read_checkKeys W ["sinks".toList, "groups".toList] .unknownProperty e s
  have hk : keysOk W e = some () := by
    unfold keysOk
    rw [if_pos]
    exact List.all_eq_true.2 hkeys
  refine ⟨s1, q1, ?_⟩
  unfold parse
  simp only [h1, h2, Option.isNone_some, Bool.false_eq_true, if_false]
  rw [bind_def, pure_def]
  simp only
  rw [bind_def, e1]
  simp only [hk, give]
  rfl

theorem runOn_eq (W : World) (F root : Nat) (p : Result) (s : St) :
    runOn W F (.document root) p s = M.bind (parse W F (W.node root)) (fun _ => fun s => .ok
      { error := p.error || s.hasError, warning := p.warning || s.hasWarning,
        message := p.message ++
          if s.hasError || s.hasWarning then
            "I: Some problems are found in config:\n".toList ++ (s.errors.map Problem.text).flatten
          else [] } s) { s with errors := [], hasError := false, hasWarning := false } := rfl

theorem runOn_run {W : World} {F root : Nat} {p : Result} {s s' : St}
    (h : parse W F (W.node root) { s with errors := [], hasError := false, hasWarning := false } = .ok () s') :
    ∃ r, runOn W F (.document root) p s = .ok r s' := by
  rw [runOn_eq]
  unfold M.bind
  rw [h]
  exact ⟨_, rfl⟩

/-! ### rejected nodes are reported -/

theorem item_step {W : World} {F f i m : Nat} {parent : Option Text} (hp : parent ≠ some star) {s s1 : St}
    (h : parseGroupItem W (parseGroup W F f parent) i m s = .ok () s1) :
    s1.sys.sinks = s.sys.sinks ∧ (s.hasError = true → s1.hasError = true) := by
  have htri : ∀ {P : St → St → Prop} [Groups W F P], Tri P Any (parseGroupItem W (parseGroup W F f parent) i m) := by
    intro P _
    have : Reads P := (inferInstance : Groups W F P).toReads
    unfold parseGroupItem
    split
    · exact tri_parseGroup W F f i _ parent hp
    · exact Reads.error _ rfl rfl
  have h1 := htri (P := SameSinks) s
  have h2 := htri (P := Emits) s
  rw [h] at h1 h2
  obtain ⟨_, _, h3, _⟩ := h2.1
  exact ⟨h1.1, fun he => by rw [h3, he]; rfl⟩

theorem list_error {W : World} {F f : Nat} {parent : Option Text} (hp : parent ≠ some star) {items : List Nat} {i : Nat} {s s' : St}
    (h : parseGroupList W (parseGroup W F f parent) i items s = .ok () s') (he : s.hasError = true) : s'.hasError = true := by
  induction items generalizing i s with
  | nil => cases h; exact he
  | cons m ms ih =>
    unfold parseGroupList at h
    obtain ⟨_, s1, h1, h2⟩ := bind_ok h
    exact ih h2 ((item_step hp h1).2 he)

theorem tells_under {W : World} {F n : Nat} {p parent : Option Text} {items : List Nat} {t : Table} (h : Under W t p n parent items)
    (hbad : ∀ e g, W.node n = .map e → ¬ UsableGroup W t p e g) : ∀ (f i : Nat) (s s' : St), parent ≠ some star → s.sys.sinks = t →
    parseGroupList W (parseGroup W F f parent) i items s = .ok () s' → s'.hasError = true := by
  induction h with
  | here hi =>
    intro f i s s' hp hs he
    exact tells_parseGroupList W F f _ hp _ hi i (by rw [hs]; exact hbad) he
  | @deeper parent items m e g hm hn hu _ ih =>
    intro f i s s' hp hs he
    induction items generalizing i s with
    | nil => cases hm
    | cons a as ihl =>
      unfold parseGroupList at he
      obtain ⟨_, s1, h1, h2⟩ := bind_ok he
      have hst := item_step hp h1
      rcases List.mem_cons.1 hm with rfl | hm
      · refine list_error hp h2 ?_
        unfold parseGroupItem at h1
        rw [hn] at h1
        simp only at h1
        cases f with
        | zero => cases h1
        | succ f =>
          rw [parseGroup_succ] at h1
          obtain ⟨o, s2, h3, h4⟩ := bind_ok h1
          obtain ⟨s2', hq, e2⟩ := read_readGroup W i e parent s
          rw [e2] at h3
          simp only at h3
          cases hg : groupAt W e parent s.sys.sinks with
          | none => rw [hg] at h3; cases h3
          | some o' =>
            rw [hg] at h3
            cases h3
            have ho := groupAt_useless hg (by rw [hs]; exact hu)
            subst ho
            simp only [afterRead, if_neg hu.notStar] at h4
            obtain ⟨_, s3, h5, h6⟩ := bind_ok h4
            have hs3 : s3.sys.sinks = s.sys.sinks := by
              have htri2 := tri_applyGroup (P := SameSinks) (W := W) (F := F) (g := g) (entries := e) (parent := parent)
                (fun _ _ _ _ ho h => (step_sinks ho.1 ho.2 h).2.1) hu.notStar
                ((tri_readGroup (P := SameSinks) W (fun _ => (Groups.noName (W := W) (F := F) _)) i e parent s |> fun h3 => by
                    rw [e2] at h3
                    simp only [hg, give] at h3
                    exact h3.2 g rfl)) hp s2
              rw [h5] at htri2
              have h7 : s3.sys.sinks = s2.sys.sinks := htri2.1
              rw [h7, hq.1]
            cases hc : g.children with
            | none =>
              rw [hc] at ih
              exact ih 0 0 s1 s1 (fun h => hu.notStar (Option.some.inj h)) (hst.1.trans hs) rfl
            | some cs =>
              rw [hc] at h6 ih
              exact ih f 0 s3 s1 (fun h => hu.notStar (Option.some.inj h)) (hs3.trans hs) h6
      · exact ihl hm (i + 1) s1 (hst.1.trans hs) h2

end Yaml
end Soralog
