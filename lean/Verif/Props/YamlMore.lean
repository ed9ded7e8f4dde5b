import Verif.Props.Yaml
/-!
# C49-C52, C67: problems, completeness, the reserved name, termination, exceptions
-/
namespace Soralog
namespace Yaml

open Soralog.System

/-! ## C49 -/

theorem mark_text (p : Problem) : (p.mark = 'E' ↔ "E: ".toList <+: p.text) ∧ (p.mark = 'W' ↔ "W: ".toList <+: p.text) := by
  have back : ∀ {c : Char}, [c, ':', ' '] <+: p.text → p.mark = c := by
    rintro c ⟨t, ht⟩
    unfold Problem.mark
    rw [← ht]
    rfl
  have key : (p.mark = 'E' ∧ "E: ".toList <+: p.text) ∨ (p.mark = 'W' ∧ "W: ".toList <+: p.text) := by
    cases p <;> first
      | exact .inl ⟨rfl, by decide⟩
      | exact .inr ⟨rfl, by decide⟩
      | exact .inl ⟨rfl, pre_app (pre_app (by decide))⟩
      | exact .inr ⟨rfl, pre_app (pre_app (by decide))⟩
      | exact .inl ⟨rfl, pre_app (pre_app (pre_app (pre_app (by decide))))⟩
      | exact .inr ⟨rfl, pre_app (pre_app (pre_app (pre_app (by decide))))⟩
      | exact .inl ⟨rfl, pre_app (pre_app (pre_app (pre_app (pre_app (pre_app (by decide))))))⟩
      | exact .inr ⟨rfl, pre_app (pre_app (pre_app (pre_app (pre_app (pre_app (by decide))))))⟩
  rcases key with ⟨h1, h2⟩ | ⟨h1, h2⟩
  · exact ⟨⟨fun _ => h2, fun _ => h1⟩, ⟨fun h => by rw [h1] at h; exact absurd h (by decide), fun h => back h⟩⟩
  · exact ⟨⟨fun h => by rw [h1] at h; exact absurd h (by decide), fun h => back h⟩, ⟨fun _ => h2, fun _ => h1⟩⟩

/-- The problems found while a source is processed to its end are those in `errors`; the flags and the message of the result. -/
theorem result_of {W : World} {F : Nat} {src : Source} {p r : Result} {s s' : St} (h : runOn W F src p s = .ok r s') :
    r.error = (p.error || s'.errors.any Problem.setsError) ∧ r.warning = (p.warning || s'.errors.any Problem.setsWarning) ∧
    r.message = p.message ++ if s'.errors.any Problem.setsError || s'.errors.any Problem.setsWarning then
      "I: Some problems are found in config:\n".toList ++ (s'.errors.map Problem.text).flatten else [] := by
  have key : ∀ s1 : St, s1.errors = [] → s1.hasError = false → s1.hasWarning = false → Emits s1 s' →
      s'.hasError = s'.errors.any Problem.setsError ∧ s'.hasWarning = s'.errors.any Problem.setsWarning := by
    rintro s1 h1 h2 h3 ⟨ps, e1, e2, e3⟩
    rw [h1, List.nil_append] at e1
    rw [h2, Bool.false_or] at e2
    rw [h3, Bool.false_or] at e3
    rw [e1]
    exact ⟨e2, e3⟩
  have hres : s'.hasError = s'.errors.any Problem.setsError ∧ s'.hasWarning = s'.errors.any Problem.setsWarning ∧
      r = ⟨p.error || s'.hasError, p.warning || s'.hasWarning, p.message ++
        if s'.hasError || s'.hasWarning then
          "I: Some problems are found in config:\n".toList ++ (s'.errors.map Problem.text).flatten else []⟩ := by
    cases src with
    | document root =>
      obtain ⟨s1, s2, _, h2, _, rfl, h3, h4, h5, h6⟩ := runOn_ok h
      have ht := tri_parse W F (W.node root) (P := Emits) s1
      rw [h2] at ht
      have := key s1 h3 h4 h5 ht.1
      exact ⟨this.1, this.2, h6⟩
    | unreadable path what =>
      unfold runOn at h
      obtain ⟨_, s1, h1, h2⟩ := bind_ok h
      obtain ⟨_, s2, h3, h4⟩ := bind_ok h2
      cases h1
      cases h4
      cases path with
      | none => cases h3; exact ⟨rfl, rfl, rfl⟩
      | some _ => cases h3; exact ⟨rfl, rfl, rfl⟩
  rw [hres.2.2]
  simp only [hres.1, hres.2.1]
  exact ⟨trivial, trivial, trivial⟩

/-- **C49**, partial.  A configurator returns an error iff a problem marked `E:` was found, a warning iff one marked `W:` was found,
and its message lists the texts of all problems found -- provided that none of the problems found is one of the four odd kinds
(`Problem.odd`: sink without name, sink that is not a map, missing sink of a multisink, group without name), for which see
`C49_refuted`. -/
theorem C49_partial {W : World} {F : Nat} {src : Source} {s s' : St} {r : Result} (h : applyOn W F (.yaml src) s = .ok r s')
    (hodd : ∀ p ∈ s'.errors, p.odd = false) :
    (r.error = true ↔ ∃ p ∈ s'.errors, "E: ".toList <+: p.text) ∧ (r.warning = true ↔ ∃ p ∈ s'.errors, "W: ".toList <+: p.text) ∧
    r.message = if s'.errors = [] then [] else
      "I: Some problems are found in config:\n".toList ++ (s'.errors.map Problem.text).flatten := by
  obtain ⟨h1, h2, h3⟩ := result_of h
  have he : s'.errors.any Problem.setsError = true ↔ ∃ p ∈ s'.errors, "E: ".toList <+: p.text := by
    rw [List.any_eq_true]
    constructor
    · rintro ⟨p, hp, hs⟩
      rw [(p.sets_regular (hodd p hp)).1] at hs
      exact ⟨p, hp, (mark_text p).1.1 (eq_of_beq hs)⟩
    · rintro ⟨p, hp, hs⟩
      refine ⟨p, hp, ?_⟩
      rw [(p.sets_regular (hodd p hp)).1, (mark_text p).1.2 hs]
      rfl
  have hw : s'.errors.any Problem.setsWarning = true ↔ ∃ p ∈ s'.errors, "W: ".toList <+: p.text := by
    rw [List.any_eq_true]
    constructor
    · rintro ⟨p, hp, hs⟩
      rw [(p.sets_regular (hodd p hp)).2] at hs
      exact ⟨p, hp, (mark_text p).2.1 (eq_of_beq hs)⟩
    · rintro ⟨p, hp, hs⟩
      refine ⟨p, hp, ?_⟩
      rw [(p.sets_regular (hodd p hp)).2, (mark_text p).2.2 hs]
      rfl
  simp only [Bool.false_or, List.nil_append] at h1 h2 h3
  refine ⟨by rw [h1]; exact he, by rw [h2]; exact hw, ?_⟩
  rw [h3]
  cases hl : s'.errors with
  | nil => rfl
  | cons p ps =>
    have hp : p ∈ p :: ps := List.mem_cons_self
    rw [hl] at he hw
    rw [if_neg (List.cons_ne_nil p ps), if_pos]
    rw [Bool.or_eq_true]
    rcases p.mark_cases with hm | hm
    · exact .inl (he.2 ⟨p, hp, (mark_text p).1.1 hm⟩)
    · exact .inr (hw.2 ⟨p, hp, (mark_text p).2.1 hm⟩)

/-- **C49**, exactly, for every document and whatever problems are found: the error flag is returned iff a problem marked `E:` other
than a sink without name or a missing sink of a multisink is found, or a group without name; the warning flag iff a problem marked
`W:` other than a sink that is not a map or a group without name is found, or a missing sink of a multisink; and the message is the
texts of all problems found if one of the two flags is returned, nothing otherwise.  Missing: the property as stated, which is false
for these four kinds. -/
theorem C49_iff_partial {W : World} {F : Nat} {src : Source} {s s' : St} {r : Result} (h : applyOn W F (.yaml src) s = .ok r s') :
    (r.error = true ↔ ∃ p ∈ s'.errors,
      ("E: ".toList <+: p.text ∧ (∀ i, p ≠ .sinkNoName i) ∧ (∀ k n, p ≠ .multiMissing k n)) ∨ ∃ t, p = .groupNoName t) ∧
    (r.warning = true ↔ ∃ p ∈ s'.errors,
      ("W: ".toList <+: p.text ∧ (∀ i, p ≠ .sinkNotMap i) ∧ (∀ t, p ≠ .groupNoName t)) ∨ ∃ k n, p = .multiMissing k n) ∧
    r.message = if r.error = true ∨ r.warning = true then
      "I: Some problems are found in config:\n".toList ++ (s'.errors.map Problem.text).flatten else [] := by
  obtain ⟨h1, h2, h3⟩ := result_of h
  simp only [Bool.false_or, List.nil_append] at h1 h2 h3
  have he : ∀ p : Problem, p.setsError = true ↔
      ("E: ".toList <+: p.text ∧ (∀ i, p ≠ .sinkNoName i) ∧ (∀ k n, p ≠ .multiMissing k n)) ∨ ∃ t, p = .groupNoName t := by
    intro p
    rw [← (mark_text p).1]
    cases ho : p.odd with
    | false =>
      rw [(p.sets_regular ho).1]
      constructor
      · intro x
        exact .inl ⟨eq_of_beq x, fun i e => (by subst e; cases ho), fun k n e => (by subst e; cases ho)⟩
      · rintro (⟨x, _⟩ | ⟨t, e⟩)
        · rw [x]; rfl
        · subst e; cases ho
    | true =>
      cases p <;> try (cases ho)
      case true.sinkNoName.refl i => exact ⟨fun x => (by cases x), fun x => x.elim (fun y => absurd rfl (y.2.1 i)) (fun ⟨_, e⟩ => (by cases e))⟩
      case true.sinkNotMap.refl i => exact ⟨fun x => (by cases x), fun x => x.elim (fun y => absurd y.1 (by change ¬ 'W' = 'E'; decide)) (fun ⟨_, e⟩ => (by cases e))⟩
      case true.multiMissing.refl k n => exact ⟨fun x => (by cases x), fun x => x.elim (fun y => absurd rfl (y.2.2 k n)) (fun ⟨_, e⟩ => (by cases e))⟩
      case true.groupNoName.refl t => exact ⟨fun _ => .inr ⟨t, rfl⟩, fun _ => rfl⟩
  have hw : ∀ p : Problem, p.setsWarning = true ↔
      ("W: ".toList <+: p.text ∧ (∀ i, p ≠ .sinkNotMap i) ∧ (∀ t, p ≠ .groupNoName t)) ∨ ∃ k n, p = .multiMissing k n := by
    intro p
    rw [← (mark_text p).2]
    cases ho : p.odd with
    | false =>
      rw [(p.sets_regular ho).2]
      constructor
      · intro x
        exact .inl ⟨eq_of_beq x, fun i e => (by subst e; cases ho), fun k e => (by subst e; cases ho)⟩
      · rintro (⟨x, _⟩ | ⟨k, n, e⟩)
        · rw [x]; rfl
        · subst e; cases ho
    | true =>
      cases p <;> try (cases ho)
      case true.sinkNoName.refl i => exact ⟨fun x => (by cases x), fun x => x.elim (fun y => absurd y.1 (by change ¬ 'E' = 'W'; decide)) (fun ⟨_, _, e⟩ => (by cases e))⟩
      case true.sinkNotMap.refl i => exact ⟨fun x => (by cases x), fun x => x.elim (fun y => absurd rfl (y.2.1 i)) (fun ⟨_, _, e⟩ => (by cases e))⟩
      case true.multiMissing.refl k n => exact ⟨fun _ => .inr ⟨k, n, rfl⟩, fun _ => rfl⟩
      case true.groupNoName.refl t => exact ⟨fun x => (by cases x), fun x => x.elim (fun y => absurd rfl (y.2.2 t)) (fun ⟨_, _, e⟩ => (by cases e))⟩
  refine ⟨?_, ?_, ?_⟩
  · rw [h1, List.any_eq_true]
    exact ⟨fun ⟨p, hp, hx⟩ => ⟨p, hp, (he p).1 hx⟩, fun ⟨p, hp, hx⟩ => ⟨p, hp, (he p).2 hx⟩⟩
  · rw [h2, List.any_eq_true]
    exact ⟨fun ⟨p, hp, hx⟩ => ⟨p, hp, (hw p).1 hx⟩, fun ⟨p, hp, hx⟩ => ⟨p, hp, (hw p).2 hx⟩⟩
  · rw [h3, h1, h2]
    simp only [Bool.or_eq_true]

/-- **C49**, chains.  The result of a chain of configurators contains that of the previous ones: flags stay set, and the message
begins with theirs. -/
theorem C49_chain {W : World} {F : Nat} {c : Configurator} {src : Source} {s s' : St} {r : Result}
    (h : applyOn W F (.yamlAfter c src) s = .ok r s') :
    ∃ r0 s0, applyOn W F c s = .ok r0 s0 ∧ (r0.error = true → r.error = true) ∧ (r0.warning = true → r.warning = true) ∧
      r0.message <+: r.message := by
  unfold applyOn at h
  obtain ⟨r0, s0, h1, h2⟩ := bind_ok h
  obtain ⟨e1, e2, e3⟩ := result_of h2
  refine ⟨r0, s0, h1, fun h => by rw [e1, h]; rfl, fun h => by rw [e2, h]; rfl, ?_⟩
  rw [e3]
  exact List.prefix_append _ _

theorem warnNowhere_keeps {s : Sys} : ∀ {es : List (Text × Nat)} {r r' : Result}, warnNowhere s es r = some r' →
    r'.error = r.error ∧ (r.warning = true → r'.warning = true) ∧ r.message <+: r'.message := by
  intro es
  induction es with
  | nil => intro r r' h; cases h; exact ⟨rfl, id, List.prefix_rfl⟩
  | cons e es ih =>
    intro r r' h
    unfold warnNowhere at h
    split at h
    · exact ih h
    · split at h
      · cases h
      · split at h
        · obtain ⟨a, b, c⟩ := ih h
          exact ⟨a, fun _ => b rfl, (pre_app (pre_app (List.prefix_append _ _))).trans c⟩
        · exact ih h

/-- **C49**, `configure`.  What the configurator returned is in the result of `configure`; an error is added only if there is no
group at all. -/
theorem C49_configure {W : World} {F : Nat} {what : Text} {c : Configurator} {s s0 s' : St} {r r0 : Result}
    (hc : applyOn W F c { s with sys := { s.sys with configured := true } } = .ok r0 s0) (h : configure W F what c s = .ok r s') :
    s' = s0 ∧ (r.error = true ↔ r0.error = true ∨ s'.sys.groups = []) ∧ (r0.warning = true → r.warning = true) ∧
      r0.message <+: r.message := by
  unfold configure at h
  split at h
  · cases h
  · rw [hc] at h
    simp only at h
    split at h
    · rename_i he
      cases h
      exact ⟨rfl, ⟨fun _ => .inr (List.isEmpty_iff.1 he), fun _ => rfl⟩, id, List.prefix_append _ _⟩
    · rename_i he
      split at h
      · cases h
      · rename_i r1 hr
        cases h
        obtain ⟨a, b, d⟩ := warnNowhere_keeps hr
        refine ⟨rfl, ?_, b, d⟩
        rw [a]
        exact ⟨.inl, fun h => h.elim id fun h => absurd (List.isEmpty_iff.2 h) he⟩

/-- **C49**, rejected nodes.  If a document is processed to its end, the result has the error flag if a node of the list of sinks
that has a name declares no sink, or if an element of a list of groups, at any depth, is not usable. -/
theorem C49_rejected {W : World} {F root : Nat} {e : List (Nat × Nat)} (hroot : W.node root = .map e) {s s' : St} {r : Result}
    (h : applyOn W F (.yaml (.document root)) s = .ok r s')
    (hbad : (∃ n m, n ∈ listAt W e "sinks".toList ∧ W.node n = .map m ∧ (prop W m "name".toList).isSome ∧ ∀ d, ¬ Declares W m d) ∨
      (∃ p n, Under W s'.sys.sinks p n none (listAt W e "groups".toList) ∧
        ∀ m g, W.node n = .map m → ¬ UsableGroup W s'.sys.sinks p m g)) : r.error = true := by
  obtain ⟨s1, s2, _, hp, q3, rfl, _, _, _, hr⟩ := runOn_ok h
  obtain ⟨sa, sb, sc, qa, ha, qb, eb, hc⟩ := (parse_ok hp).1 e hroot
  rw [hr]
  simp only [Bool.false_or]
  rcases hbad with ⟨n, m, hn, hm, hname, hd⟩ | ⟨p, n, hu, hd⟩
  · refine list_error (fun h => by cases h) hc (eb ?_)
    have h9 := sink_useless_of_ok ha hn (fun d ⟨m', hm', hd'⟩ => by rw [hm] at hm'; cases hm'; exact hd d hd')
    unfold SinkUseless at h9
    rw [hm] at h9
    exact (tells_parseSinkList W hm hname h9 _ hn 0 sa () sb ha).2 trivial
  · have hsk : sc.sys.sinks = s'.sys.sinks := (keepSinks_groups (fun h => by cases h) hc).2.1.symm
    exact tells_under hu hd F 0 sc s' (fun h => by cases h) hsk hc

/-- `demoDoc` has a node of a sink without type and group nodes without name, one of them nested in the group `a` -/
example (t : Table) (ht : (t.find "con".toList).isSome) :
    (∃ n m, n ∈ listAt demoDoc [(5, 17), (6, 18)] "sinks".toList ∧ demoDoc.node n = .map m ∧ (prop demoDoc m "name".toList).isSome ∧
      ∀ d, ¬ Declares demoDoc m d) ∧
    ∃ p n, Under demoDoc t p n none (listAt demoDoc [(5, 17), (6, 18)] "groups".toList) ∧ p = some "a".toList ∧
      ∀ m g, demoDoc.node n = .map m → ¬ UsableGroup demoDoc t p m g := by
  constructor
  · exact ⟨20, [(0, 36)], by decide, rfl, by decide, fun d h => demo_noType d ⟨_, rfl, h⟩⟩
  · exact ⟨some "a".toList, 26, .deeper (m := 22) (by decide) rfl (demo_a t ht) (.here (by decide)), rfl,
      fun m g h => demo_noName t _ m g h⟩

/-- Documents with odd problems.  20: a good console; 30: a good group for it. -/
def oddDoc : World := demo [
  /- 16 -/ .map [(5, 18), (6, 17)],
  /- 17 -/ .seq [30],
  /- 18 -/ .seq [20, 19],                         -- a sink without name
  /- 19 -/ .map [(1, 41)],
  /- 20 -/ .map [(0, 40), (1, 41)],
  /- 21 -/ .map [(5, 22), (6, 17)],
  /- 22 -/ .seq [20, 40],                         -- a sink that is not a map
  /- 23 -/ .map [(5, 24), (6, 25)],
  /- 24 -/ .seq [20],
  /- 25 -/ .seq [30, 26],                         -- a group without name
  /- 26 -/ .map [(2, 43)],
  /- 27 -/ .map [(5, 28), (6, 17)],
  /- 28 -/ .seq [20, 29],                         -- a missing sink of a multisink
  /- 29 -/ .map [(0, 45), (1, 46), (5, 47)],
  /- 30 -/ .map [(0, 42), (3, 40), (2, 43)],
  /- 31 -/ .map [(5, 32), (6, 17)],
  /- 32 -/ .seq [20, 33, 34],                     -- a reported problem, then an exception
  /- 33 -/ .map [(0, 42)],
  /- 34 -/ .map [(0, 45), (1, 41), (7, 40)],
  /- 35 -/ .null, .null, .null, .null, .null,
  /- 40 -/ .scalar "con".toList, .scalar "console".toList, .scalar "a".toList, .scalar "info".toList, .scalar "x".toList,
  /- 45 -/ .scalar "y".toList, .scalar "multisink".toList,
  /- 47 -/ .seq [44]]

/-- **C49 is false** for the odd kinds: a sink without name is a problem marked `E:` with neither flag and, if it is the only one,
without any message; one that is not a map is marked `W:` and the same; a group without name is marked `W:` and sets the error
flag; a missing sink of a multisink is marked `E:` and sets the warning flag only; and an exception loses the messages of the
problems found before. -/
theorem C49_refuted :
    (configure oddDoc 20 [] (.yaml (.document 16)) (new false id false)).shows (fun r s => (r, s.errors)) =
      some (⟨false, false, []⟩, [.sinkNoName 1]) ∧
    (configure oddDoc 20 [] (.yaml (.document 21)) (new false id false)).shows (fun r s => (r, s.errors)) =
      some (⟨false, false, []⟩, [.sinkNotMap 1]) ∧
    (configure oddDoc 20 [] (.yaml (.document 23)) (new false id false)).shows (fun r s => (r.error, s.errors)) =
      some (true, [.groupNoName "node #1".toList, .moreBugs "node #1".toList]) ∧
    (configure oddDoc 20 [] (.yaml (.document 27)) (new false id false)).shows (fun r s => ((r.error, r.warning), s.errors)) =
      some ((false, true), [.multiMissing "x".toList "y".toList]) ∧
    (configure oddDoc 20 "bad conversion".toList (.yaml (.document 31)) (new false id false)).shows (fun r s => (r, s.errors)) =
      some (⟨true, false, "E: Configure is failed: bad conversion; Logging system is unworkable\n".toList⟩, [.sinkNoType 1]) ∧
    "E: ".toList <+: (Problem.sinkNoName 1).text ∧ "W: ".toList <+: (Problem.sinkNotMap 1).text ∧
    "W: ".toList <+: (Problem.groupNoName []).text ∧ "W: ".toList <+: (Problem.moreBugs []).text ∧
    "E: ".toList <+: (Problem.multiMissing [] []).text := by
  refine ⟨?_, ?_, ?_, ?_, ?_, by decide, by decide, by decide, by decide, by decide⟩ <;> decide +kernel

/-! ## C50 -/

theorem started_reach {ok : Sys → Op → Prop} {s : St} (h : ReachBy ok s.sys) : ReachBy ok (started s).sys := .configuring h

/-- **C50**, sinks.  On a system in which no root group has been created without a sink by hand, every group has a sink after any
configuration -- with or without errors, also after an exception -- and `configure` never dereferences a null sink. -/
theorem C50_sinks {W : World} {F : Nat} {what : Text} {c : Configurator} {s : St} (hs : ReachBy rootsNameSink s.sys) :
    configure W F what c s ≠ .ub ∧ ∀ r s', configure W F what c s = .ok r s' →
      ∀ g, g < s'.sys.ngroups → ∃ k, (s'.sys.grp g).sink = some k ∧ k < s'.sys.nsinks := by
  have hk := keeps_applyOn W F c (started s)
  constructor
  · intro h
    unfold configure at h
    split at h
    · cases h
    · change (match applyOn W F c (started s) with
        | .ub => .ub
        | .diverge => .diverge
        | .throw s =>
          .ok ⟨true, false, "E: Configure is failed: ".toList ++ what ++ "; Logging system is unworkable\n".toList⟩ s
        | .ok r s =>
          if s.sys.groups.isEmpty then
            .ok ⟨true, r.warning, r.message ++ "E: No one group is defined; Logging system is unworkable\n".toList⟩ s
          else
            match warnNowhere s.sys s.sys.groups r with
            | none => .ub
            | some r => .ok r s : Out Result) = .ub at h
      cases ha : applyOn W F c (started s) with
      | ub => exact applyOn_noUb W F c _ ha
      | diverge => rw [ha] at h; cases h
      | throw s1 => rw [ha] at h; cases h
      | ok r0 s1 =>
        rw [ha] at h hk
        simp only at h
        split at h
        · cases h
        · have hr := hk.1 (started_reach hs)
          obtain ⟨r', hr'⟩ := warnNowhere_some (C46_sinks_partial hr) s1.sys.groups r0 (groups_lt hr.reach.wf)
          rw [hr'] at h
          cases h
  · intro r s' h g hg
    have hr : ReachBy rootsNameSink s'.sys := configure_tri (keeps_applyOn W F c) h (started_reach hs)
    obtain ⟨k, hk⟩ := Option.isSome_iff_exists.1 ((C46_sinks_partial hr).1 g hg)
    exact ⟨k, hk, hr.reach.wf.gsLt g k hg hk⟩

/-- both worlds of `demoDoc`: with the console sink and with the missing one -/
example : demoRun.shows (fun _ s => s.sys.ngroups) = some 3 ∧
    demoRun.shows (fun _ s => (List.range 3).map fun g => ((s.sys.grp g).sink.map s.sys.sinkName)) =
      some [some "con".toList, some "con".toList, some star] := by
  constructor <;> decide +kernel

theorem written {y : Sys} {p : Option Text} {g : GroupNode} {x : Nat} (hx : y.groups.find g.name = some x) (h : AsDeclared y p g x) :
    AsWritten y p g x := by
  have hp : ∀ q, p = some q → ∃ z, y.groups.find q = some z ∧ (y.grp x).parent = some z := by
    intro q hq
    obtain ⟨z, hz⟩ := Option.isSome_iff_exists.1 (h.there q hq)
    refine ⟨z, hz, ?_⟩
    rw [h.group, hq]
    exact hz
  refine ⟨hx, by rw [h.group]; rfl, fun hn => by rw [h.group, hn]; rfl, hp, fun k hk => ?_, fun hk => ?_, fun l hl => ?_, fun hl => ?_⟩
  · obtain ⟨j, hj⟩ := Option.isSome_iff_exists.1 (h.sink k hk)
    refine ⟨j, hj, ?_⟩
    rw [h.group, hk]
    simp only [newGroup, Option.bind_some, hj, Option.isSome_some, if_true]
  · have : p.isSome := by
      rcases h.sinkOrParent with h1 | h1
      · rw [hk] at h1; cases h1
      · exact h1
    obtain ⟨q, hq⟩ := Option.isSome_iff_exists.1 this
    obtain ⟨z, hz, hz'⟩ := hp q hq
    refine ⟨z, hz', ?_⟩
    rw [h.group, hk, hq]
    simp only [newGroup, Option.bind_none, Option.bind_some, hz, Option.isSome_none, Bool.false_eq_true, if_false]
  · rw [h.group, hl]; rfl
  · have : p.isSome := by
      rcases h.level with h1 | h1
      · rw [hl] at h1; cases h1
      · exact h1
    obtain ⟨q, hq⟩ := Option.isSome_iff_exists.1 this
    obtain ⟨z, hz, hz'⟩ := hp q hq
    refine ⟨z, hz', ?_⟩
    rw [h.group, hl, hq]
    simp only [newGroup, Option.bind_some, hz]

/-- **C50**, nesting, for documents in which every group is declared once, under a name that is not taken: after a document that is
processed to its end every usable node is a group of that name, whose parent is the group it is nested in (none at top level), with
the level and sink of the node, or those of the parent if the node has none; these are all the groups added, and the groups there
were are as they were.  What is missing: names declared twice, or taken; see `C50_nesting_refuted`. -/
theorem C50_nesting_partial {W : World} {F root : Nat} {e : List (Nat × Nat)} (hroot : W.node root = .map e) {s s' : St} {r : Result}
    (hs : Reach s.sys) (h : applyOn W F (.yaml (.document root)) s = .ok r s') {D : List (Option Text × GroupNode)}
    (hD : Nests W s'.sys.sinks none (listAt W e "groups".toList) D) (hnew : ∀ d ∈ D, s.sys.groups.find d.2.name = none)
    (honce : (D.map (·.2.name)).Nodup) :
    (∀ d ∈ D, ∃ x, s.sys.ngroups ≤ x ∧ AsWritten s'.sys d.1 d.2 x) ∧ s'.sys.ngroups = s.sys.ngroups + D.length ∧
      ∀ g, g < s.sys.ngroups → s'.sys.grp g = s.sys.grp g := by
  obtain ⟨s1, s2, q1, h2, q3, _⟩ := runOn_ok h
  obtain ⟨sa, sb, sc, qa, ha, qb, eb, hc⟩ := (parse_ok h2).1 e hroot
  have h5 := added_foldl (declared W (listAt W e "sinks".toList)) (sa.sys, sa.specs)
  rw [← sinkList_ok ha] at h5
  have e0 : sa.sys = s.sys := by rw [qa.1, q1.1]
  have hrest := h5.rest
  simp only [e0] at hrest
  have e1 : sc.sys.groups = s.sys.groups := by rw [qb.1, hrest]
  have e2 : sc.sys.ngroups = s.sys.ngroups := by rw [qb.1, hrest]
  have e3 : sc.sys.grp = s.sys.grp := by rw [qb.1, hrest]
  have h8 := nests_of_ok W F F none _ 0 sc s2 (fun h => by cases h) hc
  have htri := tri_parseGroupList (P := SameSinks) W (fun i e => tri_parseGroup W F F i e none (fun h => by cases h)) 0
    (listAt W e "groups".toList) sc
  rw [hc] at htri
  have e4 : s2.sys.sinks = sc.sys.sinks := htri.1
  rw [q3.1, e4] at hD
  have := hD.unique h8
  subst this
  have hlt : ∀ k x, sc.sys.groups.find k = some x → x < sc.sys.ngroups := by
    intro k x hk
    rw [e1] at hk
    rw [e2]
    exact hs.wf.gLt k x hk
  have hm := (made_groups W F F).1 none 0 _ sc s2 (fun h => by cases h) hlt honce (fun d hd => by rw [e1]; exact hnew d hd) hc
  rw [q3.1]
  refine ⟨fun d hd => ?_, by rw [hm.count, e2], fun g hg => by rw [hm.grpSame g (by rw [e2]; exact hg), e3]⟩
  obtain ⟨x, hx, hx'⟩ := hm.made d hd
  exact ⟨x, by rw [← e2]; exact hx.1, written hx.2 hx'⟩

example : ∃ r s', applyOn demoDoc 20 (.yaml (.document 16)) (new false id false) = .ok r s' ∧
    Nests demoDoc s'.sys.sinks none [22, 26, 23] [(none, demoA), (some "a".toList, demoB), (none, demoC)] ∧
    (∀ d ∈ [((none : Option Text), demoA), (some "a".toList, demoB), (none, demoC)], (new false id false).sys.groups.find d.2.name = none) ∧
    ([demoA, demoB, demoC].map (·.name)).Nodup := by
  have h : (applyOn demoDoc 20 (.yaml (.document 16)) (new false id false)).shows (fun _ s => (s.sys.sinks.find "con".toList).isSome) =
      some true := by decide +kernel
  cases ha : applyOn demoDoc 20 (.yaml (.document 16)) (new false id false) with
  | ok r s' =>
    rw [ha] at h
    exact ⟨r, s', rfl, (demo_nests _ (Option.some.inj h)).1, by decide, by decide⟩
  | _ => rw [ha] at h; cases h

/-- a > b > a (16), a > b > c > a (30) -/
def twiceDoc : World := demo [
  /- 16 -/ .map [(6, 17)], .seq [18], .map [(0, 24), (2, 26), (4, 19)], .seq [20],
  /- 20 -/ .map [(0, 25), (4, 21)], .seq [22], .map [(0, 24)], .null, .scalar "a".toList,
  /- 25 -/ .scalar "b".toList, .scalar "info".toList, .scalar "c".toList, .null, .null,
  /- 30 -/ .map [(6, 31)], .seq [32], .map [(0, 24), (2, 26), (4, 33)], .seq [34], .map [(0, 25), (4, 35)],
  /- 35 -/ .seq [36], .map [(0, 27), (4, 37)], .seq [22]]

/-- **C50** is false of nested groups in general: with `a` > `b` > `a` the group `b` is no child of `a` (it is a root and `a` is its
child), with `a` > `b` > `c` > `a` the innermost node is not obeyed; nothing is reported. -/
theorem C50_nesting_refuted :
    (applyOn twiceDoc 20 (.yaml (.document 16)) (new false id false)).shows (fun r s => (r, (List.range s.sys.ngroups).map fun g =>
      ((s.sys.grp g).name, (s.sys.grp g).parent.map fun p => (s.sys.grp p).name))) =
      some (⟨false, false, []⟩, [("a".toList, some "b".toList), ("b".toList, none)]) ∧
    (applyOn twiceDoc 20 (.yaml (.document 30)) (new false id false)).shows (fun r s => (r, (List.range s.sys.ngroups).map fun g =>
      ((s.sys.grp g).name, (s.sys.grp g).parent.map fun p => (s.sys.grp p).name))) =
      some (⟨false, false, []⟩, [("a".toList, none), ("b".toList, some "a".toList), ("c".toList, some "b".toList)]) := by
  constructor <;> decide +kernel

/-! ## C51 -/

theorem tri_yaml (W : World) (F : Nat) (src : Source) : Tri CallsOnly Any (applyOn W F (.yaml src)) := by
  show Tri CallsOnly Any (runOn W F src ⟨false, false, []⟩)
  unfold runOn
  refine Tri.bind (Q := Any) (fun s => ⟨.refl _, trivial⟩) fun _ _ => Tri.bind (Q := Any) ?_ fun _ _ => fun s => ⟨.refl _, trivial⟩
  cases src with
  | document root => exact tri_parse W F _
  | unreadable p w => cases p <;> exact Reads.error _ rfl rfl

/-- **C51**, no effect on what is named `*`.  Whatever the document, and whether it is processed to its end or an exception ends it:
the name `*` refers to the same sink as before, no sink and no group of the name `*` is created, no name of a sink or group is
changed, and the fallback group (which the system keeps under the name `*`) is the one it was or a group of another name. -/
theorem C51_reserved {W : World} {F : Nat} {src : Source} {s s' : St} {r : Result} (hs : Reach s.sys)
    (h : applyOn W F (.yaml src) s = .ok r s' ∨ applyOn W F (.yaml src) s = .throw s') :
    getSink star s'.sys = getSink star s.sys ∧
    (∀ k, k < s'.sys.nsinks → s'.sys.sinkName k = star → k < s.sys.nsinks ∧ s.sys.sinkName k = star) ∧
    (∀ g, g < s'.sys.ngroups → (s'.sys.grp g).name = star → g < s.sys.ngroups ∧ (s.sys.grp g).name = star) ∧
    (∀ k, k < s.sys.nsinks → k < s'.sys.nsinks ∧ s'.sys.sinkName k = s.sys.sinkName k) ∧
    (∀ g, g < s.sys.ngroups → g < s'.sys.ngroups ∧ (s'.sys.grp g).name = (s.sys.grp g).name) ∧
    (getFallbackGroup s'.sys = getFallbackGroup s.sys ∨ ∃ g, getFallbackGroup s'.sys = some g ∧ (s'.sys.grp g).name ≠ star) := by
  have ht := tri_yaml W F src s
  have hc : Calls yamlOp s.sys s'.sys := by
    rcases h with h | h
    · rw [h] at ht; exact ht.1
    · rw [h] at ht; exact ht
  obtain ⟨hr, _⟩ := reserved_calls hs hc
  refine ⟨hr.sink, fun k hk hn => ?_, fun g hg hn => ?_, fun k hk => ⟨Nat.lt_of_lt_of_le hk hr.sinks, hr.sinkOld k hk⟩,
    fun g hg => ⟨Nat.lt_of_lt_of_le hg hr.groups, hr.groupOld g hg⟩, hr.fallback⟩
  · by_cases hlt : k < s.sys.nsinks
    · exact ⟨hlt, by rw [← hr.sinkOld k hlt]; exact hn⟩
    · exact absurd hn (hr.sinkNew k (Nat.not_lt.1 hlt) hk)
  · by_cases hlt : g < s.sys.ngroups
    · exact ⟨hlt, by rw [← hr.groupOld g hlt]; exact hn⟩
    · exact absurd hn (hr.groupNew g (Nat.not_lt.1 hlt) hg)

/-- **C51**, reported.  If a document that has a node of a sink or, at any depth in usable groups, a node of a group of the name `*`
is processed to its end, the result has the error flag.  (That the node is left out is C53.) -/
theorem C51_reported {W : World} {F root : Nat} {e : List (Nat × Nat)} (hroot : W.node root = .map e) {s s' : St} {r : Result}
    (h : applyOn W F (.yaml (.document root)) s = .ok r s')
    (hbad : (∃ n m, n ∈ listAt W e "sinks".toList ∧ W.node n = .map m ∧ textAt W m "name".toList = some star) ∨
      (∃ p n m, Under W s'.sys.sinks p n none (listAt W e "groups".toList) ∧ W.node n = .map m ∧ textAt W m "name".toList = some star)) :
    r.error = true := by
  refine C49_rejected hroot h ?_
  rcases hbad with ⟨n, m, hn, hm, ht⟩ | ⟨p, n, m, hu, hm, ht⟩
  · refine .inl ⟨n, m, hn, hm, ?_, fun d hd => ?_⟩
    · unfold textAt at ht
      cases hp : prop W m "name".toList with
      | none => rw [hp] at ht; cases ht
      | some x => rfl
    · cases hd with
      | console hn hs _ => rw [ht] at hn; exact hs (Option.some.inj hn).symm
      | file hn hs _ _ => rw [ht] at hn; exact hs (Option.some.inj hn).symm
      | syslog hn hs _ _ => rw [ht] at hn; exact hs (Option.some.inj hn).symm
      | multi hn hs _ _ _ => rw [ht] at hn; exact hs (Option.some.inj hn).symm
  · refine .inr ⟨p, n, hu, fun m' g hm' hu => ?_⟩
    rw [hm] at hm'
    cases hm'
    have := hu.name
    rw [ht] at this
    exact hu.notStar (Option.some.inj this).symm

/-- a document with a sink and a group of the name `*` and a fallback group `a` -/
def starDoc : World := demo [
  /- 16 -/ .map [(5, 17), (6, 18)], .seq [19], .seq [20, 21], .map [(0, 24), (1, 26)],
  /- 20 -/ .map [(0, 25), (2, 27), (13, 28)], .map [(0, 24), (2, 27)], .null, .null, .scalar star,
  /- 25 -/ .scalar "a".toList, .scalar "console".toList, .scalar "info".toList, .scalar "true".toList]

example : (applyOn starDoc 20 (.yaml (.document 16)) (new false id false)).shows (fun r s => (r.error, s.errors)) =
      some (true, [.sinkReserved, .groupReserved]) ∧
    (applyOn starDoc 20 (.yaml (.document 16)) (new false id false)).shows (fun _ s => ((s.sys.nsinks, s.sys.ngroups), s.sys.groups)) =
      some ((1, 1), [(star, 0), ("a".toList, 0)]) ∧
    (19 ∈ listAt starDoc [(5, 17), (6, 18)] "sinks".toList ∧ textAt starDoc [(0, 24), (1, 26)] "name".toList = some star) ∧
    Under starDoc [] none 21 none (listAt starDoc [(5, 17), (6, 18)] "groups".toList) := by
  refine ⟨?_, ?_, by decide, .here (by decide)⟩ <;> decide +kernel

/-! ## C52 -/

/-- **C52** for documents without cycles (of aliases) and in which no group is nested directly in a node of its own name
(`Plain`), on a system whose history is regular in the same way and in which no root group has been created without a sink: from
some recursion bound on, `configure` has one and the same outcome; it is not undefined behaviour, it is not endless, and the
hierarchy it leaves is acyclic. -/
theorem C52_partial {W : World} (hW : Plain W) (what : Text) (c : Configurator) {s : St} (h1 : ReachBy noSelfParent s.sys)
    (h2 : ReachBy rootsNameSink s.sys) :
    ∃ N o, (∀ F, N ≤ F → configure W F what c s = o) ∧ o ≠ .ub ∧ o ≠ .diverge ∧
      ∀ r s', o = .ok r s' → ∀ g, g < s'.sys.ngroups → ¬ Hierarchy.Ancestor s'.sys.parent g g := by
  by_cases hcf : s.sys.configured = true
  · exact ⟨0, .throw s, fun F _ => by unfold configure; rw [if_pos hcf], nofun, nofun, nofun⟩
  · obtain ⟨N, o, ho, hg⟩ := fixed_applyOn hW c (s := started s) (started_reach h1)
    have hc : ∀ F, N ≤ F → configure W F what c s = configure W N what c s := by
      intro F hF
      unfold configure
      rw [if_neg hcf, if_neg hcf]
      have e1 := ho F hF
      have e2 := ho N (Nat.le_refl _)
      unfold started at e1 e2
      simp only at e1 e2
      rw [e1, e2]
    refine ⟨N, _, hc, (C50_sinks h2).1, fun hd => ?_, fun r s' hr g hgl => ?_⟩
    · have hu := (C50_sinks (W := W) (F := N) (what := what) (c := c) h2).1
      have e2 := ho N (Nat.le_refl _)
      unfold configure at hd
      rw [if_neg hcf] at hd
      unfold started at e2
      simp only at e2
      rw [e2] at hd
      cases o with
      | ub => exact hg
      | diverge => exact hg
      | throw s1 => cases hd
      | ok r0 s1 =>
        simp only at hd
        split at hd
        · cases hd
        · split at hd <;> cases hd
    · have hr' : ReachBy noSelfParent s'.sys := by
        have e2 := ho N (Nat.le_refl _)
        unfold configure at hr
        rw [if_neg hcf] at hr
        unfold started at e2
        simp only at e2
        rw [e2] at hr
        cases o with
        | ub => cases hr
        | diverge => cases hr
        | throw s1 => cases hr; exact hg
        | ok r0 s1 =>
          simp only at hr
          split at hr
          · cases hr; exact hg
          · split at hr
            · cases hr
            · cases hr; exact hg
      exact C38_acyclic_partial hr' hgl

/-- the elements of 'children' of the node -/
def kids (W : World) (n : Nat) : List Nat :=
  match W.node n with
  | .map e => listAt W e "children".toList
  | _ => []

theorem nested_kids {W : World} {c n : Nat} (h : Nested W c n) : c ∈ kids W n := by
  obtain ⟨e, items, h1, h2, h3⟩ := h
  unfold kids listAt
  rw [h1]
  simp only [h2]
  exact h3

theorem demo_plain : Plain demoDoc := by
  have hlt : ∀ c n, Nested demoDoc c n → n < 46 := by
    intro c n h
    have := nested_kids h
    apply Nat.lt_of_not_le
    intro hn
    have h0 : demoDoc.node n = .null := by
      show List.getD _ n _ = _
      rw [List.getD_eq_getElem?_getD, List.getElem?_eq_none (by exact hn)]
      rfl
    unfold kids at this
    rw [h0] at this
    cases this
  refine ⟨⟨fun n => if n = 22 then 1 else 0, fun c n h => ?_⟩, fun c n h => ?_⟩
  · exact (by decide +kernel : ∀ n, n < 46 → ∀ c ∈ kids demoDoc n, (if c = 22 then 1 else 0) < if n = 22 then 1 else 0) n (hlt c n h) c
      (nested_kids h)
  · exact (by decide +kernel : ∀ n, n < 46 → ∀ c ∈ kids demoDoc n, (nameOf demoDoc c).isSome → nameOf demoDoc c ≠ nameOf demoDoc n) n
      (hlt c n h) c (nested_kids h)

example : Plain demoDoc ∧ ReachBy noSelfParent (new false id false).sys ∧ ReachBy rootsNameSink (new false id false).sys :=
  ⟨demo_plain, .init _ _ fun _ => .refl _, .init _ _ fun _ => .refl _⟩

/-- 16: `a` nested in `a`; 20: the same, then `b` twice; 25: `a` > `b` > the node of `a` again (an alias) -/
def knotDoc : World := demo [
  /- 16 -/ .map [(6, 17)], .seq [18], .map [(0, 32), (2, 34), (4, 19)], .seq [22],
  /- 20 -/ .map [(6, 21)], .seq [18, 23, 23], .map [(0, 32)], .map [(0, 33), (2, 34)], .null,
  /- 25 -/ .map [(6, 26)], .seq [27], .map [(0, 32), (2, 34), (4, 28)], .seq [29], .map [(0, 33), (4, 26)],
  /- 30 -/ .null, .null, .scalar "a".toList, .scalar "b".toList, .scalar "info".toList]

/-- the groups of document 25 of `knotDoc` -/
def knotA : GroupNode := { name := "a".toList, isFallback := false, sink := none, level := some .info, children := some [29] }
def knotB : GroupNode := { name := "b".toList, isFallback := false, sink := none, level := none, children := some [27] }

theorem knot_step {F f : Nat} {parent : Option Text} {n : Nat} {e : List (Nat × Nat)} {g : GroupNode} {cs : List Nat} {i : Nat} {s : St}
    (P : Sys → Prop) (hn : knotDoc.node n = .map e) (hg : groupAt knotDoc e parent s.sys.sinks = some (some g)) (hs : g.name ≠ star)
    (hc : g.children = some cs)
    (hap : ∀ s1 : St, s1.sys = s.sys → (∃ s2, applyGroup F g parent s1 = .ok () s2 ∧ P s2.sys) ∨ applyGroup F g parent s1 = .diverge)
    (hrec : ∀ s' : St, P s'.sys → parseGroupList knotDoc (parseGroup knotDoc F f (some g.name)) 0 cs s' = .diverge) :
    parseGroupList knotDoc (parseGroup knotDoc F (f + 1) parent) i [n] s = .diverge := by
  unfold parseGroupList parseGroupItem
  rw [bind_def, hn]
  simp only [parseGroup_succ]
  obtain ⟨s1, q1, e1⟩ := read_readGroup knotDoc i e parent s
  simp only [hg] at e1
  rw [bind_def, e1]
  simp only [give, afterRead, if_neg hs]
  rw [bind_def]
  rcases hap s1 q1.1 with ⟨s2, h1, h2⟩ | h1
  · rw [h1]
    simp only [hc]
    rw [hrec s2 h2]
  · rw [h1]

/-- both groups exist -/
def Both (y : Sys) : Prop := (y.groups.find "a".toList).isSome ∧ (y.groups.find "b".toList).isSome

theorem knot_update {F : Nat} {g : GroupNode} {p : Option Text} {s s1 : St} (hb : Both s.sys) (hfb : g.isFallback = false)
    (hx : (s.sys.groups.find g.name).isSome) (h : s1.sys = s.sys) :
    (∃ s2, applyGroup F g p s1 = .ok () s2 ∧ Both s2.sys) ∨ applyGroup F g p s1 = .diverge := by
  obtain ⟨x, hx⟩ := Option.isSome_iff_exists.1 hx
  have e2 : getGroup g.name s1.sys = some x := by rw [h]; exact hx
  rw [applyGroup_eq]
  simp only [e2, hfb, Bool.false_eq_true, if_false]
  rcases updateGroup_ok F g p s1 with ⟨s2, h1, h2, h3⟩ | h1
  · rw [bind_def, h1]
    refine .inl ⟨s2, rfl, ?_⟩
    unfold Both
    rw [h2, h]
    exact hb
  · rw [bind_def, h1]; exact .inr rfl

/-- once the two groups exist, the alias is followed for ever -/
theorem knot_loop (F : Nat) : ∀ (f i : Nat) (s : St), Both s.sys →
    parseGroupList knotDoc (parseGroup knotDoc F f (some "b".toList)) i [27] s = .diverge ∧
    parseGroupList knotDoc (parseGroup knotDoc F f (some "a".toList)) i [29] s = .diverge := by
  intro f
  induction f with
  | zero => intro i s _; exact ⟨rfl, rfl⟩
  | succ f ih =>
    intro i s hb
    constructor
    · exact knot_step Both (e := [(0, 32), (2, 34), (4, 28)]) (g := knotA) (cs := [29]) rfl rfl (by decide) rfl
        (fun s1 h => knot_update hb rfl hb.1 h) fun s' h => (ih 0 s' h).2
    · exact knot_step Both (e := [(0, 33), (4, 26)]) (g := knotB) (cs := [27]) rfl rfl (by decide) rfl
        (fun s1 h => knot_update hb rfl hb.2 h) fun s' h => (ih 0 s' h).1

theorem configure_diverge {W : World} {F : Nat} {what : Text} {root : Nat} {s : St} (hc : s.sys.configured = false)
    (h : parse W F (W.node root) { started s with errors := [], hasError := false, hasWarning := false } = .diverge) :
    configure W F what (.yaml (.document root)) s = .diverge := by
  have h1 : applyOn W F (.yaml (.document root)) { s with sys := { s.sys with configured := true } } = .diverge := by
    show runOn W F (.document root) ⟨false, false, []⟩ (started s) = .diverge
    rw [runOn_eq]
    unfold M.bind
    rw [h]
  unfold configure
  rw [if_neg (by rw [hc]; exact Bool.false_ne_true), h1]

theorem knot_alias (F : Nat) (what : Text) : configure knotDoc F what (.yaml (.document 25)) (new false id false) = .diverge := by
  refine configure_diverge rfl ?_
  show parseGroupList knotDoc (parseGroup knotDoc F F none) 0 [27] _ = .diverge
  cases F with
  | zero => rfl
  | succ f =>
    refine knot_step (fun y => y.groups = [(star, 0), ("a".toList, 0)] ∧ y.ngroups = 1)
      (e := [(0, 32), (2, 34), (4, 28)]) (g := { knotA with sink := some star }) (cs := [29]) rfl rfl (by decide) rfl ?_ ?_
    · rintro ⟨sys, sp, so, er, he, hw⟩ h
      simp only at h
      subst h
      exact .inl ⟨_, rfl, rfl, rfl⟩
    · rintro s' ⟨h', h''⟩
      cases f with
      | zero => rfl
      | succ f =>
        refine knot_step Both (e := [(0, 33), (4, 26)]) (g := knotB) (cs := [27]) rfl rfl (by decide) rfl ?_ fun s' h => (knot_loop _ f 0 s' h).1
        rintro ⟨⟨a1, a2, a3, a4, a5, a6, a7, a8, a9, a10, a11, a12, a13, a14⟩, sp, so, er, he, hw⟩ h
        rw [← h] at h' h''
        simp only at h' h''
        subst h' h''
        refine .inl ⟨_, rfl, ?_⟩
        exact ⟨rfl, rfl⟩

theorem knot_self : (applyOn knotDoc 20 (.yaml (.document 16)) (new false id false)).shows (fun r s =>
      (r, (s.sys.ngroups, ((s.sys.grp 0).name, (s.sys.grp 0).parent)))) = some (⟨false, false, []⟩, (1, ("a".toList, some 0))) := by
  decide +kernel

/-- it ends with `Q` or not at all -/
def Runs (P : Sys → Prop) (m : M Unit) (Q : Sys → Prop) : Prop :=
  ∀ s, P s.sys → m s = .diverge ∨ ∃ s', m s = .ok () s' ∧ Q s'.sys

theorem Runs.bind {P Q R : Sys → Prop} {m m' : M Unit} (h1 : Runs P m Q) (h2 : Runs Q m' R) : Runs P (m >>= fun _ => m') R := by
  intro s hs
  rw [bind_def]
  rcases h1 s hs with e | ⟨s1, e, h⟩
  · rw [e]; exact .inl rfl
  · rw [e]; exact h2 s1 h

theorem runs_pure {P : Sys → Prop} : Runs P (pure () : M Unit) P := fun s h => .inr ⟨s, rfl, h⟩

theorem runs_list {F f i n : Nat} {ns : List Nat} {parent : Option Text} {e : List (Nat × Nat)} {g : GroupNode} {P Q R T : Sys → Prop}
    (hn : knotDoc.node n = .map e) (hg : ∀ y, P y → groupAt knotDoc e parent y.sinks = some (some g)) (hs : g.name ≠ star)
    (hap : Runs P (applyGroup F g parent) Q)
    (hc : ∀ cs, g.children = some cs → Runs Q (parseGroupList knotDoc (parseGroup knotDoc F f (some g.name)) 0 cs) R)
    (hc' : g.children = none → ∀ y, Q y → R y)
    (hr : Runs R (parseGroupList knotDoc (parseGroup knotDoc F (f + 1) parent) (i + 1) ns) T) :
    Runs P (parseGroupList knotDoc (parseGroup knotDoc F (f + 1) parent) i (n :: ns)) T := by
  unfold parseGroupList
  refine Runs.bind (Q := R) ?_ hr
  unfold parseGroupItem
  rw [hn]
  intro s hps
  simp only [parseGroup_succ]
  obtain ⟨s1, q1, e1⟩ := read_readGroup knotDoc i e parent s
  simp only [hg _ hps] at e1
  rw [bind_def, e1]
  simp only [give, afterRead, if_neg hs]
  have hrun : Runs P (applyGroup F g parent >>= fun _ => match g.children with
      | some items => parseGroupList knotDoc (parseGroup knotDoc F f (some g.name)) 0 items
      | none => pure ()) R := by
    refine Runs.bind hap ?_
    cases hcc : g.children with
    | none => exact fun s h => .inr ⟨s, rfl, hc' hcc _ h⟩
    | some cs => exact hc cs hcc
  exact hrun s1 (by rw [q1.1]; exact hps)

/-- the group `a` is there, and (if `b`) its own parent -/
structure Knot (tab : Table) (own : Bool) (y : Sys) : Prop where
  groups : y.groups = tab
  sinks : y.sinks = [(star, 0)]
  count : y.ngroups = tab.length - 1
  parent : (y.grp 0).parent = if own then some 0 else none
  sink : (y.grp 0).sinkOv = false

theorem knot_later (F : Nat) (what : Text) : configure knotDoc F what (.yaml (.document 20)) (new false id false) = .diverge := by
  refine configure_diverge rfl ?_
  show parseGroupList knotDoc (parseGroup knotDoc F F none) 0 [18, 23, 23] _ = .diverge
  match F with
  | 0 => rfl
  | 1 => rfl
  | F + 2 =>
    have h0 : Runs (· = { System.new false id with configured := true })
        (applyGroup (F + 2) { knotA with sink := some star, children := some [22] } none) (Knot [(star, 0), ("a".toList, 0)] false) := by
      rintro ⟨sys, sp, so, er, he, hw⟩ h
      simp only at h
      subst h
      refine .inr ⟨_, rfl, ?_⟩
      exact ⟨rfl, rfl, rfl, rfl, rfl⟩
    have h1 : Runs (Knot [(star, 0), ("a".toList, 0)] false)
        (applyGroup (F + 2) { knotA with level := none, children := none } (some "a".toList)) (Knot [(star, 0), ("a".toList, 0)] true) := by
      rintro ⟨⟨a1, a2, a3, a4, a5, a6, a7, a8, a9, a10, a11, a12, a13, a14⟩, sp, so, er, he, hw⟩ ⟨e1, e2, e3, e4, e5⟩
      simp only at e1 e2 e3 e4 e5
      subst e1 e2 e3
      suffices hst : ∃ y, step (F + 2) ⟨a1, 1, a3, a4, a5, a6, a7, a8, [(star, 0), ("a".toList, 0)], a10, [(star, 0)], a12, a13, a14⟩
          (.setParentOfGroup "a".toList "a".toList) = .ret (.bool true) y ∧ Knot [(star, 0), ("a".toList, 0)] true y by
        obtain ⟨y, hy, hk⟩ := hst
        refine .inr ⟨⟨y, sp, so, er, he, hw⟩, ?_, hk⟩
        have hca : call (F + 2) (.setParentOfGroup "a".toList "a".toList)
            ⟨⟨a1, 1, a3, a4, a5, a6, a7, a8, [(star, 0), ("a".toList, 0)], a10, [(star, 0)], a12, a13, a14⟩, sp, so, er, he, hw⟩ =
            .ok () ⟨y, sp, so, er, he, hw⟩ := by unfold call; rw [hy]
        show ((call (F + 2) (.setParentOfGroup "a".toList "a".toList) >>= fun _ => (pure () >>= fun _ => pure ())) >>= fun _ => pure ()) _ = _
        rw [bind_def, bind_def]
        erw [hca]
        rfl
      have hf : Table.find [(star, 0), ("a".toList, 0)] "a".toList = some 0 := by decide
      have hgp : (setParentGroup a3 0 (some 0) 0).parent = some 0 ∧ (setParentGroup a3 0 (some 0) 0).sinkOv = false := by
        cases hl : (a3 0).levelOv <;>
          simp [setParentGroup, upd_same, e5, hl, setSinkFromGroup, setLevelFromGroup]
      simp only [step, setParentOfGroup, hf, e4]
      simp only [Bool.false_eq_true, if_false, ne_eq, reduceCtorEq, not_false_eq_true, if_true, walk, setParentOfGroupPtr, e4, propagate, List.map,
        visitAll, visit, upd_same, ofOption, Res.map, runStages, List.flatMap_nil, List.foldl_nil]
      exact ⟨_, rfl, rfl, rfl, rfl, hgp.1, hgp.2⟩
    have h2 : Runs (Knot [(star, 0), ("a".toList, 0)] true) (applyGroup (F + 2) { knotB with sink := some star, level := some .info, children := none } none)
        (Knot [(star, 0), ("a".toList, 0), ("b".toList, 1)] true) := by
      rintro ⟨⟨a1, a2, a3, a4, a5, a6, a7, a8, a9, a10, a11, a12, a13, a14⟩, sp, so, er, he, hw⟩ ⟨e1, e2, e3, e4, e5⟩
      simp only at e1 e2 e3 e4 e5
      subst e1 e2 e3
      refine .inr ⟨_, rfl, ?_⟩
      exact ⟨rfl, rfl, rfl, e4, e5⟩
    have h3 : Runs (Knot [(star, 0), ("a".toList, 0), ("b".toList, 1)] true)
        (applyGroup (F + 2) { knotB with sink := some star, level := some .info, children := none } none) (fun _ => False) := by
      rintro ⟨⟨a1, a2, a3, a4, a5, a6, a7, a8, a9, a10, a11, a12, a13, a14⟩, sp, so, er, he, hw⟩ ⟨e1, e2, e3, e4, e5⟩
      simp only at e1 e2 e3 e4 e5
      subst e1 e2 e3
      refine .inl ?_
      have hca : call (F + 2) (.setSinkOfGroup "b".toList star)
          ⟨⟨a1, 2, a3, a4, a5, a6, a7, a8, [(star, 0), ("a".toList, 0), ("b".toList, 1)], a10, [(star, 0)], a12, a13, a14⟩, sp, so, er, he, hw⟩ =
          .diverge := by
        have hf : Table.find [(star, 0), ("a".toList, 0), ("b".toList, 1)] "b".toList = some 1 := by decide
        have hk : Table.find [(star, 0)] star = some 0 := by decide
        have h0 : setSink a3 1 0 0 = a3 0 := upd_other _ _ (by decide)
        simp only [call, step, setSinkOfGroup, getSink, hf, hk, setSinkOfGroupPtr, propagate, List.map, visitAll]
        rw [visit_selfish _ _ _ _ (by decide) (by rw [h0]; exact e4) (by rw [h0]; exact e5)]
        rfl
      show ((pure () >>= fun _ => (call (F + 2) (.setSinkOfGroup "b".toList star) >>= fun _ => call (F + 2) (.setLevelOfGroup "b".toList .info)))
        >>= fun _ => pure ()) _ = _
      rw [bind_def, bind_def, pure_def]
      simp only
      rw [bind_def]
      erw [hca]
    have hlist := runs_list (n := 18) (ns := [23, 23]) (f := F + 1) (i := 0) (e := [(0, 32), (2, 34), (4, 19)]) (parent := none)
      (T := fun _ => False) rfl (fun y hy => by subst hy; rfl) (by decide) h0
      (fun cs hcs => by
        cases hcs
        exact runs_list (e := [(0, 32)]) rfl (fun y hy => rfl) (by decide) h1 (fun cs h => by cases h) (fun _ y h => h) runs_pure)
      (fun h => by cases h)
      (runs_list (e := [(0, 33), (2, 34)]) rfl (fun y hy => by rw [hy.sinks]; rfl) (by decide) h2 (fun cs h => by cases h) (fun _ y h => h)
        (runs_list (e := [(0, 33), (2, 34)]) rfl (fun y hy => by rw [hy.sinks]; rfl) (by decide) h3 (fun cs h => by cases h) (fun _ y h => h)
          runs_pure))
    rcases hlist { started (new false id false) with errors := [], hasError := false, hasWarning := false } rfl with h | ⟨_, _, h⟩
    · exact h
    · exact h.elim

/-- **C52 is false** of documents in general.  A group nested in a node of its own name becomes its own parent, and nothing is
reported; if a group that exists is named again after that, `configure` recurses for ever, whatever the bound (in the program: until
the stack is exhausted).  So it does if an alias makes a group contain itself. -/
theorem C52_refuted :
    (applyOn knotDoc 20 (.yaml (.document 16)) (new false id false)).shows (fun r s =>
      (r, (s.sys.ngroups, ((s.sys.grp 0).name, (s.sys.grp 0).parent)))) = some (⟨false, false, []⟩, (1, ("a".toList, some 0))) ∧
    (∀ F what, configure knotDoc F what (.yaml (.document 20)) (new false id false) = .diverge) ∧
    (∀ F what, configure knotDoc F what (.yaml (.document 25)) (new false id false) = .diverge) :=
  ⟨knot_self, knot_later, knot_alias⟩

/-! ## C67 -/

/-- Sinks with a wrong value, each in a document of its own, before a good group: 20 capacity not a number, 21 negative buffer, 22
color not a boolean, 23 (a group) unknown level.  The good group 19 follows in each document. -/
def wrongDoc : World := demo [
  /- 16 -/ .map [(5, 17), (6, 18)], .seq [20], .seq [19], .map [(0, 33), (2, 34)],
  /- 20 -/ .map [(0, 31), (1, 32), (7, 35)], .map [(0, 31), (1, 32), (8, 36)], .map [(0, 31), (1, 32), (12, 35)],
  /- 23 -/ .map [(0, 31), (2, 35)], .map [(5, 25), (6, 18)], .seq [21], .map [(5, 27), (6, 18)], .seq [22], .map [(6, 29)], .seq [23, 19],
  /- 30 -/ .map [(5, 17)], .scalar "x".toList, .scalar "console".toList, .scalar "g".toList, .scalar "info".toList,
  /- 35 -/ .scalar "abc".toList, .scalar "-1".toList]

/-- **C67 is false**: a value that is not a number, a negative size of the buffer, a value that is not a boolean or an unknown level of
a group at top level ends the configuration with an exception; the good group that follows is not created. -/
theorem C67_refuted :
    (configure wrongDoc 20 "bad".toList (.yaml (.document 16)) (new false id false)).shows (fun r s => (r.error, s.sys.ngroups)) = some (true, 0) ∧
    (configure wrongDoc 20 "bad".toList (.yaml (.document 24)) (new false id false)).shows (fun r s => (r.error, s.sys.ngroups)) = some (true, 0) ∧
    (configure wrongDoc 20 "bad".toList (.yaml (.document 26)) (new false id false)).shows (fun r s => (r.error, s.sys.ngroups)) = some (true, 0) ∧
    (configure wrongDoc 20 "bad".toList (.yaml (.document 28)) (new false id false)).shows (fun r s => (r.error, s.sys.ngroups)) = some (true, 0) ∧
    (∃ s', applyOn wrongDoc 20 (.yaml (.document 16)) (new false id false) = .throw s') ∧
    (∃ s', applyOn wrongDoc 20 (.yaml (.document 24)) (new false id false) = .throw s') ∧
    (∃ s', applyOn wrongDoc 20 (.yaml (.document 26)) (new false id false) = .throw s') ∧
    (∃ s', applyOn wrongDoc 20 (.yaml (.document 28)) (new false id false) = .throw s') :=
  ⟨by decide +kernel, by decide +kernel, by decide +kernel, by decide +kernel, ⟨_, rfl⟩, ⟨_, rfl⟩, ⟨_, rfl⟩, ⟨_, rfl⟩⟩

end Yaml
end Soralog
