import Verif.Props.Many
/-!
# C103: what was said first stands first, and a crash loses only an end

The program of C89: any number of threads, one logging system, its loggers, its sinks (any nesting of multisinks), queues executed one atomic access
at a time.  `Execs S s1 s2`: the execution goes on from `s1` to `s2`.  `s2.said.drop s1.said.length` is what was said in between.
-/
namespace Soralog
namespace Many
open Spec
open SinkFull (acceptedFrom accepted)

/-! ### queues and devices only grow -/

theorem tick_log (r : Ring.St Event) (t : Tid) : r.log <+: (Ring.tick r t).log := by
  unfold Ring.tick
  (repeat' split) <;> (try dsimp only) <;> (repeat' split)
  all_goals first
    | exact List.prefix_refl _
    | exact List.prefix_append _ _

theorem step_log (c : SinkConc.Cfg) (f : SinkFull.St) (t : Tid) (ch : SinkConc.Ch) : f.ring.log <+: (SinkFull.step c f t ch).ring.log := by
  have hlog := tick_log f.ring t
  have hcall : ∀ x, f.ring.log <+: (Ring.call f.ring t x).log := fun x => by
    unfold Ring.call
    (repeat' split) <;> first | exact List.prefix_refl _ | exact List.prefix_append _ _
  have hdrop : f.ring.log <+: (SinkFull.dropRef f.ring t).log := by
    unfold SinkFull.dropRef Ring.drop
    (repeat' split) <;> exact List.prefix_refl _
  unfold SinkFull.step
  (repeat' split) <;> (try dsimp only) <;> (repeat' split)
  all_goals first
    | exact List.prefix_refl _
    | exact hlog
    | exact hcall _
    | exact hdrop

theorem step_device (c : SinkConc.Cfg) (f : SinkFull.St) (t : Tid) (ch : SinkConc.Ch) :
    f.gens.flatten ++ f.dev <+: (SinkFull.step c f t ch).gens.flatten ++ (SinkFull.step c f t ch).dev := by
  have h1 : ∀ x, f.gens.flatten ++ f.dev <+: f.gens.flatten ++ (f.dev ++ x) := fun x => by rw [← List.append_assoc]; exact List.prefix_append _ _
  have h2 : f.gens.flatten ++ f.dev <+: (f.gens ++ [f.dev ++ f.sbuf]).flatten ++ [] := by
    simp only [List.flatten_append, List.flatten_cons, List.flatten_nil, List.append_nil]
    rw [← List.append_assoc]; exact List.prefix_append _ _
  unfold SinkFull.step
  (repeat' split) <;> (try dsimp only) <;> (repeat' split)
  all_goals first
    | exact List.prefix_refl _
    | exact h1 _
    | exact h2

theorem exec_grows {S : Setup} {s s' : St} (h : Exec S s s') :
    s.said <+: s'.said ∧ ∀ i, acceptedBy (s.leaf i) <+: acceptedBy (s'.leaf i) ∧
      (s.leaf i).gens.flatten ++ (s.leaf i).dev <+: (s'.leaf i).gens.flatten ++ (s'.leaf i).dev := by
  have same : ∀ {i j : Nat} {f : Nat → SinkFull.St} {g : SinkFull.St}, ((f j).ring.log <+: g.ring.log ∧ (f j).gens.flatten ++ (f j).dev <+: g.gens.flatten ++ g.dev) →
      acceptedBy (f i) <+: acceptedBy (upd f j g i) ∧ (f i).gens.flatten ++ (f i).dev <+: (upd f j g i).gens.flatten ++ (upd f j g i).dev := by
    intro i j f g hg
    by_cases hj : i = j
    · subst hj; rw [System.upd_same]; exact ⟨hg.1.filterMap _, hg.2⟩
    · rw [System.upd_other _ _ hj]; exact ⟨List.prefix_refl _, List.prefix_refl _⟩
  have refl : ∀ f : SinkFull.St, f.ring.log <+: f.ring.log ∧ f.gens.flatten ++ f.dev <+: f.gens.flatten ++ f.dev := fun f => ⟨List.prefix_refl _, List.prefix_refl _⟩
  cases h with
  | system u sys' ht hf hm =>
    obtain ⟨xs, h1, _⟩ := new_said (S := S) hm
    exact ⟨by rw [h1]; exact List.prefix_append _ _, fun i => ⟨List.prefix_refl _, List.prefix_refl _⟩⟩
  | direct u k d ht hf hi => exact ⟨List.prefix_append _ _, fun i => ⟨List.prefix_refl _, List.prefix_refl _⟩⟩
  | destroy u j ht hf hi ho hc hn => exact ⟨List.prefix_refl _, fun i => same (refl _)⟩
  | enter u j q rest call ht hd hf hi ho hs => exact ⟨List.prefix_refl _, fun i => same (refl _)⟩
  | leaf j u ch => exact ⟨List.prefix_refl _, fun i => same ⟨step_log _ _ _ _, step_device _ _ _ _⟩⟩

theorem execs_grows {S : Setup} {s s' : St} (h : Execs S s s') :
    s.said <+: s'.said ∧ ∀ i, acceptedBy (s.leaf i) <+: acceptedBy (s'.leaf i) ∧
      (s.leaf i).gens.flatten ++ (s.leaf i).dev <+: (s'.leaf i).gens.flatten ++ (s'.leaf i).dev := by
  induction h with
  | refl => exact ⟨List.prefix_refl _, fun i => ⟨List.prefix_refl _, List.prefix_refl _⟩⟩
  | more h _ ih =>
    have h1 := exec_grows h
    exact ⟨h1.1.trans ih.1, fun i => ⟨(h1.2 i).1.trans (ih.2 i).1, (h1.2 i).2.trans (ih.2 i).2⟩⟩

theorem Matches.rest {α β : Type} {rel : α → β → Prop} {as as' : List α} {bs bs' : List β} (h : Matches rel (as ++ as') (bs ++ bs')) (h1 : Matches rel as bs) :
    Matches rel as' bs' := by
  induction h1 with
  | nil => exact h
  | cons _ _ ih => cases h with | cons _ h => exact ih h

theorem Matches.front {α β : Type} {rel : α → β → Prop} {as as' : List α} {bs ds : List β} (h1 : Matches rel as bs) :
    Matches rel (as ++ as') ds → bs <+: ds ∨ ds <+: bs → ∃ ds', ds = bs ++ ds' ∧ Matches rel as' ds' := by
  intro h hp
  have hlen : bs.length ≤ ds.length := by
    have e1 := h.length_eq
    have e2 := h1.length_eq
    simp at e1; omega
  have hpre : bs <+: ds := by
    rcases hp with hp | hp
    · exact hp
    · rw [List.IsPrefix.eq_of_length hp (Nat.le_antisymm hp.length_le hlen)]; exact List.prefix_refl _
  obtain ⟨ds', rfl⟩ := hpre
  exact ⟨ds', rfl, h.rest h1⟩

/-- **C103**, order: between two moments of any execution every sink only adds to the end of what it has accepted.  So everything a thread said before the
first moment, if its call had returned by then, stands before everything said later by anybody whose call began after the first moment: the first is
in `before` (all of it, in order), the second in `after` (a beginning of it, in order; all of it when that call has returned).  What is written is a
beginning of the whole, in the same order. -/
theorem C103_order (S : Setup) (hS : S.Sound) (s1 s2 : St) (h : Reach S s1) (he : Execs S s1 s2) (i : Nat) (ho : (S.leaf i).opened = true) :
    ∃ before after : List (Tid × Event), acceptedBy (s2.leaf i) = before ++ after ∧
      (∀ t, Free s1 t → Matches (EventOf (S.leaf i)) (ofThread t before) (addressed S t i s1.said)) ∧
      (∀ t, Free s1 t → ∃ done rest, addressed S t i (s2.said.drop s1.said.length) = done ++ rest ∧ Matches (EventOf (S.leaf i)) (ofThread t after) done) ∧
      (∀ t, Free s1 t → Free s2 t → Matches (EventOf (S.leaf i)) (ofThread t after) (addressed S t i (s2.said.drop s1.said.length))) ∧
      (s2.leaf i).written <+: (before ++ after).map (·.2) := by
  obtain ⟨hsaid, hleaf⟩ := execs_grows he
  obtain ⟨after, hafter⟩ := (hleaf i).1
  obtain ⟨new, hnew⟩ := hsaid
  have hb : ∀ t, Free s1 t → Matches (EventOf (S.leaf i)) (ofThread t (acceptedBy (s1.leaf i))) (addressed S t i s1.said) := fun t hf => by
    have := C89_delivered_once_in_order S hS s1 h t hf i
    rwa [← acceptedBy_filter] at this
  refine ⟨acceptedBy (s1.leaf i), after, hafter.symm, hb, fun t hf1 => ?_, fun t hf1 hf2 => ?_, ?_⟩
  · obtain ⟨done, rest, h3, h2⟩ := C89_never_too_much S hS s2 (he.reach h) t i
    rw [← acceptedBy_filter, ← hafter] at h2
    rw [← hnew, addressed_append] at h3
    have h2 : Matches (EventOf (S.leaf i)) (ofThread t (acceptedBy (s1.leaf i)) ++ ofThread t after) done := by
      unfold ofThread
      rw [← List.map_append, ← List.filter_append]; exact h2
    obtain ⟨ds, e1, e2⟩ := (hb t hf1).front h2 (List.prefix_or_prefix_of_prefix (h3 ▸ List.prefix_append _ _) (List.prefix_append done rest))
    rw [e1, List.append_assoc] at h3
    rw [← hnew, List.drop_left]
    exact ⟨ds, rest, List.append_cancel_left h3, e2⟩
  · have h2 := C89_delivered_once_in_order S hS s2 (he.reach h) t hf2 i
    rw [← acceptedBy_filter, ← hafter, ← hnew, addressed_append] at h2
    rw [← hnew, List.drop_left]
    have h2 : Matches (EventOf (S.leaf i)) (ofThread t (acceptedBy (s1.leaf i)) ++ ofThread t after) (addressed S t i s1.said ++ addressed S t i new) := by
      unfold ofThread
      rw [← List.map_append, ← List.filter_append]; exact h2
    exact h2.rest (hb t hf1)
  · rw [hafter, acceptedBy_map]
    have hr := leaf_reach (he.reach h) i
    rw [ho] at hr
    exact (SinkFull.C72_exactly_once_in_order _ (hS.room i) _ hr).1

/-- **C103**, crash: what the operating system has of a sink's output at any moment - all that is left if the process is killed then - is a beginning of the
records of the events `w` accepted so far, of which those of each thread are the beginning of what it addressed to this sink; and what it has it keeps. -/
theorem C103_crash (S : Setup) (hS : S.Sound) (s1 s2 : St) (h : Reach S s1) (he : Execs S s1 s2) (i : Nat) (ho : (S.leaf i).opened = true)
    (hk : (S.leaf i).conc.isSyslog = false) :
    (s1.leaf i).gens.flatten ++ (s1.leaf i).dev <+: (s2.leaf i).gens.flatten ++ (s2.leaf i).dev ∧
    ∃ w : List (Tid × Event), (s2.leaf i).gens.flatten ++ (s2.leaf i).dev <+: w.flatMap (fun x => (S.leaf i).conc.render x.2) ∧
      ∀ t, ∃ done rest, addressed S t i s2.said = done ++ rest ∧ Matches (EventOf (S.leaf i)) (ofThread t w) done := by
  obtain ⟨w, h1, _, h3⟩ := C89_file_contents S hS s2 (he.reach h) i ho hk
  exact ⟨((execs_grows he).2 i).2, w, by rw [← h1]; exact List.prefix_append _ _, h3⟩

theorem later_run : Execs exampleSetup final shut := by
  have h : closed = some shut := (Option.some_get _).symm
  unfold closed at h
  rw [final_eq, Option.bind_eq_some_iff] at h
  obtain ⟨s, h1, h2⟩ := h
  obtain rfl := Option.some.inj h1
  exact (run_execs final_run.2 h2).1

/-- the hypotheses of the theorems above: threads 1 and 2 have logged and returned; then thread 1 logs again and thread 3 destroys the file -/
example : Reach exampleSetup final ∧ Execs exampleSetup final shut ∧ Free final 1 ∧ Free final 2 ∧ Free shut 1 ∧
    (exampleSetup.leaf 0).opened = true ∧ (exampleSetup.leaf 0).conc.isSyslog = false ∧
    (addressed exampleSetup 2 0 final.said).length = 1 ∧ (addressed exampleSetup 1 0 (shut.said.drop final.said.length)).length = 1 ∧
    (acceptedBy (shut.leaf 0)).map (·.1) = [1, 2, 1] :=
  ⟨final_run.1.reach initial_reach, later_run, freeNow_free final_run.2 (by decide) (by decide +kernel), freeNow_free final_run.2 (by decide) (by decide +kernel),
    freeNow_free shut_run.2 (by decide) (by decide +kernel), rfl, rfl, by decide +kernel, by decide +kernel, by decide +kernel⟩

end Many
end Soralog
