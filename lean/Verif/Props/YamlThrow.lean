import Verif.Props.YamlMore
import Verif.Proofs.YamlThrow
import Verif.Proofs.YamlFaults
/-!
# C67: a wrong value is reported, and the rest of the document is applied
-/
namespace Soralog
namespace Yaml

open Soralog.System

/-- there is a sink of the reserved name in every reachable system -/
theorem reach_star {ok : Sys → Op → Prop} {s : Sys} (h : ReachBy ok s) : (s.sinks.find star).isSome := by
  refine h.invariant (P := fun s => (s.sinks.find star).isSome) (fun _ _ => rfl) ?_
  intro s s' _ hs ht
  cases ht with
  | sink name =>
    show ((s.sinks.put name s.nsinks).find star).isSome
    rw [Table.find_put]
    split
    · rfl
    · exact hs
  | level _ _ _ _ h => rw [h.rest]; exact hs
  | sinkOf _ _ _ _ _ h => rw [h.rest]; exact hs
  | parentOf _ _ _ _ _ _ _ h => rw [h.rest]; exact hs
  | _ => exact hs

/-- **C67**, no exception.  If the values of a document can be read (`Readable`: numbers are numbers, booleans are booleans ...; of
their meaning nothing is required), applying it to a system never ends with an exception. -/
theorem C67_no_exception {W : World} {F root : Nat} {e : List (Nat × Nat)} (hroot : W.node root = .map e) {s : St}
    (hr : Readable W e s.syslogOpen) {ok : Sys → Op → Prop} (h1 : ReachBy ok s.sys) :
    ∀ s', applyOn W F (.yaml (.document root)) s ≠ .throw s' := by
  intro s' h
  change runOn W F (.document root) ⟨false, false, []⟩ s = .throw s' at h
  rw [runOn_eq, hroot] at h
  have hc := calm_parse F (s := { s with errors := [], hasError := false, hasWarning := false }) hr (reach_star h1)
  unfold Calm at hc
  unfold M.bind at h
  split at h
  · cases h
  · rename_i he; rw [he] at hc; exact hc
  · cases h
  · cases h

/-- **C67**, partial.  A document whose values can be read and in which no group is directly nested in one of its own name is
processed to its end, whatever is wrong in it: from some depth of the recursion on, applying it returns a result; the sinks it declares
are created (with default values instead of the unusable ones), and all its usable group nodes are carried out.  What is missing: see
`C67_refuted`. -/
theorem C67_partial {W : World} (hW : Plain W) {root : Nat} {e : List (Nat × Nat)} (hroot : W.node root = .map e) {s : St}
    (hr : Readable W e s.syslogOpen) (h1 : ReachBy noSelfParent s.sys) :
    ∃ N, ∀ F, N ≤ F → ∃ r s' ds y D, applyOn W F (.yaml (.document root)) s = .ok r s' ∧ Listed W (listOf W e "sinks".toList) ds ∧
      Added ds (s.sys, s.specs) (y, s'.specs) ∧ Nests W y.sinks none (listOf W e "groups".toList) D ∧ Carried F D y s'.sys := by
  obtain ⟨N, o, ho, hg⟩ := fixed_applyOn hW (.yaml (.document root)) h1
  refine ⟨N, fun F hF => ?_⟩
  have e1 := ho F hF
  cases o with
  | throw s' => exact absurd e1 (C67_no_exception hroot hr h1 s')
  | ub => exact hg.elim
  | diverge => exact hg.elim
  | ok r s' =>
    obtain ⟨ds, y, D, h2, h3, h4, h5⟩ := C69_calls hroot e1
    rw [← listOf_eq] at h2 h4
    exact ⟨r, s', ds, y, D, e1, h2, h3, h4, h5⟩

/-- what it means that a problem found is reported -/
theorem told {W : World} {F : Nat} {src : Source} {s s' : St} {r : Result} (h : applyOn W F (.yaml src) s = .ok r s') {p : Problem}
    (hp : p ∈ s'.errors) (ho : p.odd = false) :
    p.text <:+: r.message ∧ (p.isError → r.error = true) ∧ (¬ p.isError → r.warning = true) := by
  obtain ⟨h1, h2, h3⟩ := result_of h
  have hE : p.isError → s'.errors.any Problem.setsError = true := fun he =>
    List.any_eq_true.2 ⟨p, hp, by rw [(p.sets_regular ho).1, (mark_text p).1.2 he]; rfl⟩
  have hN : ¬ p.isError → s'.errors.any Problem.setsWarning = true := fun he =>
    List.any_eq_true.2 ⟨p, hp, by
      rw [(p.sets_regular ho).2]
      rcases p.mark_cases with hm | hm
      · exact absurd ((mark_text p).1.1 hm) he
      · rw [hm]; rfl⟩
  refine ⟨?_, fun he => by rw [h1, hE he]; rfl, fun he => by rw [h2, hN he]; rfl⟩
  rw [h3, if_pos]
  · obtain ⟨a, b, hab⟩ := List.append_of_mem hp
    rw [hab, List.map_append, List.map_cons, List.flatten_append, List.flatten_cons]
    exact ⟨[] ++ ("I: Some problems are found in config:\n".toList ++ (a.map Problem.text).flatten), (b.map Problem.text).flatten, by
      simp only [List.nil_append, List.append_assoc]⟩
  · rw [Bool.or_eq_true]
    by_cases he : p.isError
    · exact .inl (hE he)
    · exact .inr (hN he)

theorem SinkFault.regular {W : World} {e : List (Nat × Nat)} {n type : Text} {p : Problem} (h : SinkFault W e n type p) : p.odd = false := by
  cases h with
  | unknown => split <;> rfl
  | _ => rfl

theorem GroupFault.regular {W : World} {e : List (Nat × Nat)} {n : Text} {p : Problem} (h : GroupFault W e n p) : p.odd = false := by
  cases h <;> rfl

/-- **C67**, reported.  Every wrong value of a sink of a known type, and every unknown level or property of a group at any depth, is
reported if the document is processed to its end: the message names it, and the flag of its severity is set. -/
theorem C67_reported {W : World} {F root : Nat} {e : List (Nat × Nat)} (hroot : W.node root = .map e) {s s' : St} {r : Result}
    (h : applyOn W F (.yaml (.document root)) s = .ok r s') {p : Problem}
    (hp : (∃ n m name type, n ∈ listOf W e "sinks".toList ∧ W.node n = .map m ∧ textAt W m "name".toList = some name ∧ name ≠ star ∧
        textAt W m "type".toList = some type ∧ type ∈ ["console".toList, "file".toList, "syslog".toList, "multisink".toList] ∧
        SinkFault W m name type p) ∨
      (∃ q n m name, Under W s'.sys.sinks q n none (listOf W e "groups".toList) ∧ W.node n = .map m ∧
        textAt W m "name".toList = some name ∧ GroupFault W m name p)) :
    p.text <:+: r.message ∧ (p.isError → r.error = true) ∧ (¬ p.isError → r.warning = true) := by
  obtain ⟨s1, s2, _, hpar, q3, rfl, _⟩ := runOn_ok h
  have hpar2 := hpar
  rw [hroot] at hpar2
  rcases hp with ⟨n, m, name, type, hn, hm, h1, h2, h3, h4, h5⟩ | ⟨q, n, m, name, hu, hm, h1, h2⟩
  · refine told h ?_ h5.regular
    rw [listOf_eq] at hn
    have hsay := says_sinkList hm (fun i => says_sink (i := i) h1 h2 h3 h4 h5) _ hn 0
    -- the phases again, keeping the list of problems
    unfold parse at hpar2
    obtain ⟨_, sa, _, hb⟩ := bind_ok hpar2
    obtain ⟨_, sb, _, hc⟩ := bind_ok hb
    obtain ⟨_, sc, hd, he⟩ := bind_ok hc
    have hsc : p ∈ sc.errors := by
      unfold listAt at hn hsay
      cases hq : prop W e "sinks".toList with
      | none => rw [hq] at hn; cases hn
      | some x =>
        rw [hq] at hd hn hsay
        cases x with
        | seq items => exact hsay sb () sc hd
        | null => cases hn
        | scalar t => cases hn
        | map t => cases hn
    cases hq : prop W e "groups".toList with
    | none => rw [hq] at he; cases he; exact hsc
    | some x =>
      rw [hq] at he
      cases x with
      | seq items => exact emits_mem (list_emits (fun h => by cases h)) he hsc
      | null => exact emits_mem (emits_error _ rfl rfl) he hsc
      | scalar t => exact emits_mem (emits_error _ rfl rfl) he hsc
      | map t => exact emits_mem (emits_error _ rfl rfl) he hsc
  · refine told h ?_ h2.regular
    obtain ⟨sa, sb, sc, qa, ha, qb, eb, hc⟩ := (parse_ok hpar).1 e hroot
    rw [listOf_eq] at hu
    have hsk : sc.sys.sinks = s'.sys.sinks := (keepSinks_groups (fun h => by cases h) hc).2.1.symm
    exact says_under hu hm (fun i => says_group h1 h2) F 0 sc s' (fun h => by cases h) hsk hc

/-! ### a document with wrong values -/

/-- A console with a capacity that is too small, an unknown way to show threads and an unknown property; the group `a` with the nested
group `b`, which has an unknown level and an unknown property; the good group `c`. -/
def faultDoc : World := demo [
  /- 16 -/ .map [(5, 17), (6, 18)], .seq [19], .seq [20, 22],
  /- 19 -/ .map [(0, 23), (1, 24), (7, 25), (14, 26), (15, 26)],
  /- 20 -/ .map [(0, 27), (2, 28), (4, 21)], .seq [29], .map [(0, 31), (2, 28)],
  /- 23 -/ .scalar "con".toList, .scalar "console".toList, .scalar "2".toList, .scalar "abc".toList, .scalar "a".toList,
  /- 28 -/ .scalar "info".toList, .map [(0, 30), (2, 26), (15, 26)], .scalar "b".toList, .scalar "c".toList]

theorem fault_plain : Plain faultDoc := by
  have hlt : ∀ c n, Nested faultDoc c n → n < 32 := by
    intro c n h
    have := nested_kids h
    apply Nat.lt_of_not_le
    intro hn
    have h0 : faultDoc.node n = .null := by
      show List.getD _ n _ = _
      rw [List.getD_eq_getElem?_getD, List.getElem?_eq_none (by exact hn)]
      rfl
    unfold kids at this
    rw [h0] at this
    cases this
  refine ⟨⟨fun n => if n = 20 then 1 else 0, fun c n h => ?_⟩, fun c n h => ?_⟩
  · exact (by decide +kernel : ∀ n, n < 32 → ∀ c ∈ kids faultDoc n, (if c = 20 then 1 else 0) < if n = 20 then 1 else 0) n (hlt c n h) c
      (nested_kids h)
  · exact (by decide +kernel : ∀ n, n < 32 → ∀ c ∈ kids faultDoc n, (nameOf faultDoc c).isSome → nameOf faultDoc c ≠ nameOf faultDoc n) n
      (hlt c n h) c (nested_kids h)

theorem fault_readable : Readable faultDoc [(5, 17), (6, 18)] false := by
  have hs : listOf faultDoc [(5, 17), (6, 18)] "sinks".toList = [19] := by decide
  have hg : listOf faultDoc [(5, 17), (6, 18)] "groups".toList = [20, 22] := by decide
  have hch : listOf faultDoc [(0, 27), (2, 28), (4, 21)] "children".toList = [29] := by decide
  have hd : ∀ d, NodeDeclares faultDoc 19 d → d.2.isSyslog = false ∧ ∀ c, d.2.queue = some c → faultDoc.alloc c = true := by
    rintro d ⟨m, hm, hd⟩
    cases hm
    have ht : textAt faultDoc [(0, 23), (1, 24), (7, 25), (14, 26), (15, 26)] "type".toList = some "console".toList := by decide
    cases hd with
    | console _ _ _ => exact ⟨rfl, fun c hc => by cases hc; decide +kernel⟩
    | file _ _ h _ => rw [ht] at h; exact absurd h (by decide)
    | syslog _ _ h _ => rw [ht] at h; exact absurd h (by decide)
    | multi _ _ h _ _ => rw [ht] at h; exact absurd h (by decide)
  have hgr : ∀ n, Within faultDoc n [20, 22] → n = 20 ∨ n = 22 ∨ n = 29 := by
    have hlist : ∀ items n, Within faultDoc n items → (∀ x ∈ items, x = 20 ∨ x = 22 ∨ x = 29) → n = 20 ∨ n = 22 ∨ n = 29 := by
      intro items n h
      induction h with
      | here h => exact fun hi => hi _ h
      | @deeper items m e hm hn _ ih =>
        intro hi
        apply ih
        rcases hi m hm with rfl | rfl | rfl
        · cases hn; rw [hch]; decide
        · cases hn; decide
        · cases hn; decide
    exact fun n h => hlist _ n h (by decide)
  refine ⟨by unfold KeysRead; decide, ?_, ?_, ?_, ?_, ?_⟩
  · rw [hs]
    intro n hn m hm
    rw [List.mem_singleton] at hn
    subst hn
    cases hm
    refine ⟨by unfold KeysRead; decide, by decide, ?_, ?_, by decide⟩
    · intro t i ht
      have : textAt faultDoc [(0, 23), (1, 24), (7, 25), (14, 26), (15, 26)] "buffer".toList = none := by decide
      rw [this] at ht; cases ht
    · intro t ht
      have : textAt faultDoc [(0, 23), (1, 24), (7, 25), (14, 26), (15, 26)] "color".toList = none := by decide
      rw [this] at ht; cases ht
  · rw [hs]
    intro n hn d h
    rw [List.mem_singleton] at hn
    subst hn
    exact (hd d h).2
  · rw [hs]
    intro ds h
    have : (ds.filter fun d => d.2.isSyslog) = [] := by
      cases h with
      | use h h2 => cases h2; rw [List.filter_cons_of_neg (by rw [(hd _ h).1]; decide)]; rfl
      | skip h h2 => cases h2; rfl
    rw [this]
    decide
  · rw [hg]
    intro n hn m hm
    rcases hgr n hn with rfl | rfl | rfl <;> cases hm <;> exact ⟨by unfold KeysRead; decide, by decide⟩
  · rw [hg]
    intro n hn m hm
    simp only [List.mem_cons, List.not_mem_nil, or_false] at hn
    rcases hn with rfl | rfl <;> cases hm <;> decide

/-- `faultDoc` meets the hypotheses of `C67_no_exception` and `C67_partial`; the result has the warning flag, and all is created -/
example : Plain faultDoc ∧ faultDoc.node 16 = .map [(5, 17), (6, 18)] ∧
    Readable faultDoc [(5, 17), (6, 18)] (new false id false).syslogOpen ∧ ReachBy noSelfParent (new false id false).sys :=
  ⟨fault_plain, rfl, fault_readable, .init _ _ fun _ => .refl _⟩
example : ((applyOn faultDoc 20 (.yaml (.document 16)) (new false id false)).shows fun r s => (r.warning, s.sys.nsinks, s.sys.ngroups)) =
    some (true, 2, 3) := by decide +kernel

/-- and those of `C67_reported`, with the sink and with the nested group -/
example (t : Table) : SinkFault faultDoc [(0, 23), (1, 24), (7, 25), (14, 26), (15, 26)] "con".toList "console".toList
      (.wrongValue "capacity".toList "con".toList "2".toList) ∧
    19 ∈ listOf faultDoc [(5, 17), (6, 18)] "sinks".toList ∧
    SinkFault faultDoc [(0, 23), (1, 24), (7, 25), (14, 26), (15, 26)] "con".toList "console".toList
      (.threadWrong "con".toList "abc".toList) ∧
    SinkFault faultDoc [(0, 23), (1, 24), (7, 25), (14, 26), (15, 26)] "con".toList "console".toList
      (.consoleUnknownProperty "con".toList "unknown".toList) ∧
    GroupFault faultDoc [(0, 30), (2, 26), (15, 26)] "b".toList
      (.levelInvalid ("group ''".toList ++ "b".toList ++ "''".toList) "abc".toList) ∧
    Under faultDoc t (some "a".toList) 29 none (listOf faultDoc [(5, 17), (6, 18)] "groups".toList) := by
  refine ⟨.capacity (i := 2) (by decide) (by decide) (by decide) (by decide), by decide, .thread (by decide) (by decide) (by decide),
    .unknown (x := (15, 26)) (k := "unknown".toList) (by decide) (by decide) (by decide), .level (by decide) (by decide), ?_⟩
  have h1 : prop faultDoc [(0, 27), (2, 28), (4, 21)] "is_fallback".toList = none := by decide
  have h2 : prop faultDoc [(0, 27), (2, 28), (4, 21)] "sink".toList = none := by decide
  have h3 : prop faultDoc [(0, 27), (2, 28), (4, 21)] "children".toList = some (.seq [29]) := by decide
  exact .deeper (m := 20) (e := [(0, 27), (2, 28), (4, 21)])
    (g := { name := "a".toList, isFallback := false, sink := some star, level := some .info, children := some [29] }) (by decide) rfl
    ⟨by decide, by decide, by rw [h1], by rw [h2]; rfl, by decide, fun _ => by decide, by rw [h3]⟩ (.here (by decide))

end Yaml
end Soralog
