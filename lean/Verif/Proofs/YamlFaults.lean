import Verif.Proofs.YamlReport
import Verif.Proofs.YamlCalls
import Verif.Spec.Readable
/-!
# Values that cannot be used are reported
-/
namespace Soralog
namespace Yaml

open Soralog.System

/-- if `m` ends with a value, the problem `p` has been reported -/
def Says {α : Type} (m : M α) (p : Problem) : Prop := ∀ s a s', m s = .ok a s' → p ∈ s'.errors

theorem Says.head {α β : Type} {m : M α} {k : α → M β} {p : Problem} (hm : Says m p) (hk : ∀ a, Tri Emits Any (k a)) :
    Says (m >>= k) p := by
  intro s b s' h
  obtain ⟨a, s1, h1, h2⟩ := bind_ok h
  have h3 := hk a s1
  rw [h2] at h3
  obtain ⟨ps, h4, _⟩ := h3.1
  rw [h4]
  exact List.mem_append_left _ (hm s a s1 h1)

theorem Says.tail {α β : Type} {m : M α} {k : α → M β} {p : Problem} (hk : ∀ a, Says (k a) p) : Says (m >>= k) p := by
  intro s b s' h
  obtain ⟨a, s1, _, h2⟩ := bind_ok h
  exact hk a s1 b s' h2

theorem says_report (p : Problem) : Says (report p) p := by
  intro s a s' h
  cases h
  exact List.mem_append_right _ List.mem_cons_self
theorem says_error (p : Problem) : Says (error p) p := by
  intro s a s' h
  cases h
  exact List.mem_append_right _ List.mem_cons_self
theorem says_warning (p : Problem) : Says (warning p) p := by
  intro s a s' h
  cases h
  exact List.mem_append_right _ List.mem_cons_self
theorem says_throw {α : Type} (p : Problem) : Says (throw : M α) p := by
  intro s a s' h
  cases h

theorem tri_pure {α : Type} (a : α) : Tri Emits Any (Pure.pure a : M α) := Tri.pure trivial

theorem says_then {α : Type} {m : M Unit} {p : Problem} (h : Says m p) (a : α) : Says (m >>= fun _ => Pure.pure a) p :=
  h.head fun _ => tri_pure a

theorem prop_of_text {W : World} {e : List (Nat × Nat)} {key t : Text} (h : textAt W e key = some t) : prop W e key = some (.scalar t) :=
  prop_of_textAt h

theorem says_number {W : World} {e : List (Nat × Nat)} {key t : Text} {i : Int} {accept : Int → Text → Bool} {wrong : Text → Problem}
    (h : textAt W e key = some t) (hi : W.asInt t = some i) (ha : accept i t = false) :
    Says (parseNumber W key accept wrong e) (wrong t) := by
  unfold parseNumber
  rw [prop_of_text h]
  simp only [hi, ha, Bool.false_eq_true, if_false]
  exact says_then (says_warning _) _

theorem says_number_kind {W : World} {e : List (Nat × Nat)} {key : Text} {x : Node} {accept : Int → Text → Bool} {wrong : Text → Problem}
    (h : prop W e key = some x) (hx : ∀ t, x ≠ .scalar t) : Says (parseNumber W key accept wrong e) (.notScalar key) := by
  unfold parseNumber
  rw [h]
  cases x with
  | scalar t => exact absurd rfl (hx t)
  | _ => exact says_then (says_warning _) _

theorem says_thread {W : World} {e : List (Nat × Nat)} {name t : Text} (h : textAt W e "thread".toList = some t)
    (hw : t ∉ ["name".toList, "id".toList, "none".toList]) : Says (parseThread W name e) (.threadWrong name t) := by
  unfold parseThread
  rw [prop_of_text h]
  simp only [List.mem_cons, List.not_mem_nil, or_false, not_or] at hw
  simp only [hw.1, hw.2.1, hw.2.2, if_false]
  exact says_then (says_warning _) _

theorem says_thread_kind {W : World} {e : List (Nat × Nat)} {name : Text} {x : Node} (h : prop W e "thread".toList = some x)
    (hx : ∀ t, x ≠ .scalar t) : Says (parseThread W name e) (.notScalar "thread".toList) := by
  unfold parseThread
  rw [h]
  cases x with
  | scalar t => exact absurd rfl (hx t)
  | _ => exact says_then (says_warning _) _

theorem says_level {W : World} {e : List (Nat × Nat)} {target t : Text} (h : textAt W e "level".toList = some t)
    (hw : levelNames.lookup t = none) : Says (parseLevel W target e) (.levelInvalid target t) := by
  unfold parseLevel
  rw [prop_of_text h]
  rw [← levelOf_lookup] at hw
  simp only [hw]
  exact says_then (says_error _) _

theorem says_keys {W : World} {known : List Text} {p : Text → Problem} {e : List (Nat × Nat)} {x : Nat × Nat} {k : Text} (h : x ∈ e)
    (hk : asText W x.1 = some k) (hw : k ∉ known) (hp : ∀ k, (p k).mark = 'W') (ho : ∀ k, (p k).odd = false) :
    Says (checkKeys W known p e) (p k) := by
  induction e with
  | nil => cases h
  | cons y ys ih =>
    unfold checkKeys
    rcases List.mem_cons.1 h with rfl | h
    · refine Says.head ?_ fun _ => tri_checkKeys W ys known p hp ho
      rw [hk]
      simp only
      rw [if_neg (by simpa using hw)]
      exact says_warning _
    · exact Says.tail fun _ => ih h

/-- the faults of the common part -/
inductive ArgFault (W : World) (e : List (Nat × Nat)) (console : Bool) (n : Text) : Problem → Prop
  | capacity {t : Text} {i : Int} (h : textAt W e "capacity".toList = some t) (hi : W.asInt t = some i) (hw : i < 4) :
      ArgFault W e console n (.wrongValue "capacity".toList n t)
  | buffer {t : Text} {i : Int} (h : textAt W e "buffer".toList = some t) (hi : W.asInt t = some i) (h0 : 0 ≤ i) (hw : i < 416) :
      ArgFault W e console n (.wrongValue "buffer".toList n t)
  | length {t : Text} {i : Int} (h : textAt W e "max_message_length".toList = some t) (hi : W.asInt t = some i)
      (hw : if console then i ≤ 64 else i < 64) : ArgFault W e console n (.wrongValue "max_message_length".toList n t)
  | latency {t : Text} {i : Int} (h : textAt W e "latency".toList = some t) (hi : W.asInt t = some i) (hw : i < 0 ∨ intText i ≠ t) :
      ArgFault W e console n (.latencyWrong n t)
  | thread {t : Text} (h : textAt W e "thread".toList = some t) (hw : t ∉ ["name".toList, "id".toList, "none".toList]) :
      ArgFault W e console n (.threadWrong n t)
  | notScalar {key : Text} {x : Node}
      (hk : key ∈ ["thread".toList, "capacity".toList, "buffer".toList, "max_message_length".toList, "latency".toList])
      (h : prop W e key = some x) (hx : ∀ t, x ≠ .scalar t) : ArgFault W e console n (.notScalar key)

theorem says_args {W : World} {e : List (Nat × Nat)} {console : Bool} {n : Text} {p : Problem} (h : ArgFault W e console n p) :
    Says (parseArgs W console n e) p := by
  have tn : ∀ (key : Text) (accept : Int → Text → Bool) (wrong : Text → Problem), (∀ k, (wrong k).mark = 'W') → (∀ k, (wrong k).odd = false) →
      Tri Emits Any (parseNumber W key accept wrong e) := fun key accept wrong h1 h2 =>
    (tri_parseNumber W e key accept wrong h1 h2).mono fun _ _ => trivial
  have t4 := tn "latency".toList acceptLatency (.latencyWrong n) (fun _ => rfl) fun _ => rfl
  have t3 := tn "max_message_length".toList (acceptLength console) (.wrongValue "max_message_length".toList n) (fun _ => rfl) fun _ => rfl
  have t2 := tn "buffer".toList acceptBuffer (.wrongValue "buffer".toList n) (fun _ => rfl) fun _ => rfl
  have t1 := tn "capacity".toList acceptCapacity (.wrongValue "capacity".toList n) (fun _ => rfl) fun _ => rfl
  have in1 : ∀ {p}, Says (parseThread W n e) p → Says (parseArgs W console n e) p := fun hp => by
    unfold parseArgs
    exact hp.head fun _ => Tri.bind t1 fun _ _ => Tri.bind t2 fun _ _ => Tri.bind t3 fun _ _ => Tri.bind t4 fun _ _ => tri_pure _
  have in2 : ∀ {p}, Says (parseNumber W "capacity".toList acceptCapacity (.wrongValue "capacity".toList n) e) p →
      Says (parseArgs W console n e) p := fun hp => by
    unfold parseArgs
    exact Says.tail fun _ => hp.head fun _ => Tri.bind t2 fun _ _ => Tri.bind t3 fun _ _ => Tri.bind t4 fun _ _ => tri_pure _
  have in3 : ∀ {p}, Says (parseNumber W "buffer".toList acceptBuffer (.wrongValue "buffer".toList n) e) p →
      Says (parseArgs W console n e) p := fun hp => by
    unfold parseArgs
    exact Says.tail fun _ => Says.tail fun _ => hp.head fun _ => Tri.bind t3 fun _ _ => Tri.bind t4 fun _ _ => tri_pure _
  have in4 : ∀ {p}, Says (parseNumber W "max_message_length".toList (acceptLength console) (.wrongValue "max_message_length".toList n) e) p →
      Says (parseArgs W console n e) p := fun hp => by
    unfold parseArgs
    exact Says.tail fun _ => Says.tail fun _ => Says.tail fun _ => hp.head fun _ => Tri.bind t4 fun _ _ => tri_pure _
  have in5 : ∀ {p}, Says (parseNumber W "latency".toList acceptLatency (.latencyWrong n) e) p → Says (parseArgs W console n e) p := fun hp => by
    unfold parseArgs
    exact Says.tail fun _ => Says.tail fun _ => Says.tail fun _ => Says.tail fun _ => hp.head fun _ => tri_pure _
  cases h with
  | capacity h hi hw => exact in2 (says_number h hi (by unfold acceptCapacity; simp only [decide_eq_false_iff_not]; omega))
  | @buffer t i h hi h0 hw =>
    refine in3 (says_number h hi ?_)
    unfold acceptBuffer
    rw [toSize_nonneg h0 (W.asInt_range _ _ hi).2]
    simp only [decide_eq_false_iff_not]
    show ¬ 104 * 4 ≤ i.toNat
    omega
  | length h hi hw =>
    refine in4 (says_number h hi ?_)
    unfold acceptLength
    cases console <;> simp only [Bool.false_eq_true, if_true, if_false, decide_eq_false_iff_not] at hw ⊢ <;> omega
  | latency h hi hw =>
    refine in5 (says_number h hi ?_)
    unfold acceptLatency
    simp only [decide_eq_false_iff_not]
    rintro ⟨h1, h2⟩
    rcases hw with hw | hw
    · omega
    · exact hw h1
  | thread h hw => exact in1 (says_thread h hw)
  | notScalar hk h hx =>
    simp only [List.mem_cons, List.not_mem_nil, or_false] at hk
    rcases hk with rfl | rfl | rfl | rfl | rfl
    · exact in1 (says_thread_kind h hx)
    · exact in2 (says_number_kind h hx)
    · exact in3 (says_number_kind h hx)
    · exact in4 (says_number_kind h hx)
    · exact in5 (says_number_kind h hx)

theorem tri_level (W : World) (target : Text) (e : List (Nat × Nat)) : Tri Emits Any (parseLevel W target e) :=
  (tri_parseLevel W e target).mono fun _ _ => trivial

theorem tri_args (W : World) (console : Bool) (name : Text) (e : List (Nat × Nat)) : Tri Emits Any (parseArgs W console name e) :=
  (tri_parseArgs W e name console).mono fun _ _ => trivial

theorem fault_args {W : World} {e : List (Nat × Nat)} {n type : Text} {p : Problem} (h : SinkFault W e n type p) :
    (type ≠ "multisink".toList ∧ ArgFault W e (decide (type = "console".toList)) n p) ∨
    (type = "console".toList ∧ p = .colorNotScalar ∧ ∃ x, prop W e "color".toList = some x ∧ ∀ t, x ≠ .scalar t) ∨
    (type = "console".toList ∧ p = .streamWrong ∧ ∃ x, prop W e "stream".toList = some x ∧
      x ≠ .scalar "stdout".toList ∧ x ≠ .scalar "stderr".toList) ∨
    (∃ t, textAt W e "level".toList = some t ∧ levelNames.lookup t = none ∧ p = .levelInvalid (sinkTarget n) t) ∨
    (∃ x k, x ∈ e ∧ asText W x.1 = some k ∧ k ∉ sinkProperties type ∧
      p = if type = "console".toList then .consoleUnknownProperty n k else .sinkUnknownProperty n k) := by
  cases h with
  | capacity hq h hi hw => exact .inl ⟨hq, .capacity h hi hw⟩
  | buffer hq h hi h0 hw => exact .inl ⟨hq, .buffer h hi h0 hw⟩
  | length hq h hi hw => exact .inl ⟨hq, .length h hi (by
      by_cases ht : type = "console".toList
      · rw [if_pos ht] at hw; rw [if_pos (decide_eq_true ht)]; exact hw
      · rw [if_neg ht] at hw; rw [if_neg (fun h => ht (of_decide_eq_true h))]; exact hw)⟩
  | latency hq h hi hw => exact .inl ⟨hq, .latency h hi hw⟩
  | thread hq h hw => exact .inl ⟨hq, .thread h hw⟩
  | notScalar hq hk h hx => exact .inl ⟨hq, .notScalar hk h hx⟩
  | color ht h hx => exact .inr (.inl ⟨ht, rfl, _, h, hx⟩)
  | stream ht h hx => exact .inr (.inr (.inl ⟨ht, rfl, _, h, hx⟩))
  | level h hw => exact .inr (.inr (.inr (.inl ⟨_, h, hw, rfl⟩)))
  | unknown h hk hw => exact .inr (.inr (.inr (.inr ⟨_, _, h, hk, hw, rfl⟩)))

theorem says_console {W : World} {e : List (Nat × Nat)} {n : Text} {p : Problem} (h : SinkFault W e n "console".toList p) :
    Says (parseSinkToConsole W n e) p := by
  have t7 : ∀ spec, Tri Emits Any (createSink W n spec) := tri_create W n
  have t6 : Tri Emits Any (warnIfExists n) := tri_warnIfExists n
  have t5 : Tri Emits Any (checkKeys W ("stream".toList :: "color".toList :: commonKeys) (.consoleUnknownProperty n) e) :=
    tri_checkKeys W e _ _ (fun _ => rfl) fun _ => rfl
  have t4 := tri_level W (sinkTarget n) e
  have t3 := tri_args W true n e
  have t2 : Tri Emits Any (parseStream W e) := tri_parseStream W e
  unfold parseSinkToConsole
  rcases fault_args h with ⟨_, h⟩ | ⟨_, rfl, x, hx, hn⟩ | ⟨_, rfl, x, hx, hn⟩ | ⟨t, h1, h2, rfl⟩ | ⟨x, k, h1, h2, h3, rfl⟩
  · exact Says.tail fun _ => Says.tail fun _ => (says_args h).head fun _ => Tri.bind t4 fun _ _ => Tri.bind t5 fun _ _ =>
      Tri.bind t6 fun _ _ => t7 _
  · refine Says.head ?_ fun _ => Tri.bind t2 fun _ _ => Tri.bind t3 fun _ _ => Tri.bind t4 fun _ _ => Tri.bind t5 fun _ _ =>
      Tri.bind t6 fun _ _ => t7 _
    unfold parseColor
    rw [hx]
    cases x with
    | scalar t => exact absurd rfl (hn t)
    | _ => exact says_then (says_warning _) _
  · refine Says.tail fun _ => Says.head ?_ fun _ => Tri.bind t3 fun _ _ => Tri.bind t4 fun _ _ => Tri.bind t5 fun _ _ =>
      Tri.bind t6 fun _ _ => t7 _
    unfold parseStream
    rw [hx]
    cases x with
    | scalar t =>
      simp only
      rw [if_neg (fun h => hn.1 (by rw [h])), if_neg (fun h => hn.2 (by rw [h]))]
      exact says_then (says_warning _) _
    | _ => exact says_then (says_warning _) _
  · exact Says.tail fun _ => Says.tail fun _ => Says.tail fun _ => (says_level h1 h2).head fun _ => Tri.bind t5 fun _ _ =>
      Tri.bind t6 fun _ _ => t7 _
  · exact Says.tail fun _ => Says.tail fun _ => Says.tail fun _ => Says.tail fun _ =>
      (says_keys (p := Problem.consoleUnknownProperty n) h1 h2 h3 (fun _ => rfl) fun _ => rfl).head fun _ => Tri.bind t6 fun _ _ => t7 _

theorem says_file {W : World} {e : List (Nat × Nat)} {n : Text} {p : Problem} (h : SinkFault W e n "file".toList p) :
    Says (parseSinkToFile W n e) p := by
  have t6 : ∀ (o : Option Text) (f : Text → Spec), Tri Emits Any (match o with
      | none => pure ()
      | some path => do warnIfExists n; createSink W n (f path) : M Unit) := by
    intro o f
    cases o with
    | none => exact tri_pure _
    | some path => exact Tri.bind (Q := Any) (tri_warnIfExists n) fun _ _ => tri_create W n _
  have t5 : Tri Emits Any (checkKeys W ("path".toList :: commonKeys) (.sinkUnknownProperty n) e) :=
    tri_checkKeys W e _ _ (fun _ => rfl) fun _ => rfl
  have t4 := tri_level W (sinkTarget n) e
  unfold parseSinkToFile
  rcases fault_args h with ⟨_, h⟩ | ⟨h, _⟩ | ⟨h, _⟩ | ⟨t, h1, h2, rfl⟩ | ⟨x, k, h1, h2, h3, rfl⟩
  · exact Says.tail fun path => (says_args h).head fun _ => Tri.bind t4 fun _ _ => Tri.bind t5 fun _ _ => t6 path _
  · exact absurd h (by decide)
  · exact absurd h (by decide)
  · exact Says.tail fun path => Says.tail fun _ => (says_level h1 h2).head fun _ => Tri.bind t5 fun _ _ => t6 path _
  · exact Says.tail fun path => Says.tail fun _ => Says.tail fun _ =>
      (says_keys (p := Problem.sinkUnknownProperty n) h1 h2 h3 (fun _ => rfl) fun _ => rfl).head fun _ => t6 path _

theorem says_syslog {W : World} {e : List (Nat × Nat)} {n : Text} {p : Problem} (h : SinkFault W e n "syslog".toList p) :
    Says (parseSinkToSyslog W n e) p := by
  have t6 : ∀ (o : Option Text) (f : Text → Spec), Tri Emits Any (match o with
      | none => pure ()
      | some path => do warnIfExists n; createSink W n (f path) : M Unit) := by
    intro o f
    cases o with
    | none => exact tri_pure _
    | some path => exact Tri.bind (Q := Any) (tri_warnIfExists n) fun _ _ => tri_create W n _
  have t5 : Tri Emits Any (checkKeys W ("ident".toList :: commonKeys) (.sinkUnknownProperty n) e) :=
    tri_checkKeys W e _ _ (fun _ => rfl) fun _ => rfl
  have t4 := tri_level W (sinkTarget n) e
  unfold parseSinkToSyslog
  rcases fault_args h with ⟨_, h⟩ | ⟨h, _⟩ | ⟨h, _⟩ | ⟨t, h1, h2, rfl⟩ | ⟨x, k, h1, h2, h3, rfl⟩
  · exact Says.tail fun path => (says_args h).head fun _ => Tri.bind t4 fun _ _ => Tri.bind t5 fun _ _ => t6 path _
  · exact absurd h (by decide)
  · exact absurd h (by decide)
  · exact Says.tail fun path => Says.tail fun _ => (says_level h1 h2).head fun _ => Tri.bind t5 fun _ _ => t6 path _
  · exact Says.tail fun path => Says.tail fun _ => Says.tail fun _ =>
      (says_keys (p := Problem.sinkUnknownProperty n) h1 h2 h3 (fun _ => rfl) fun _ => rfl).head fun _ => t6 path _

theorem says_multi {W : World} {e : List (Nat × Nat)} {n : Text} {p : Problem} (h : SinkFault W e n "multisink".toList p) :
    Says (parseMultisink W n e) p := by
  have t6 : ∀ (o : Option (List Nat)) (l : Option Level), Tri Emits Any (match o with
      | none => pure ()
      | some items =>
        match items.mapM (asText W) with
        | none => throw
        | some names => do
          let sinks ← collect n names
          createSink W n (.multi (l.getD .trace) sinks) : M Unit) := by
    intro o l
    cases o with
    | none => exact tri_pure _
    | some items =>
      simp only
      split
      · exact Tri.throw
      · exact Tri.bind (Q := Any) (tri_collect W n _) fun _ _ => tri_create W n _
  have t5 : Tri Emits Any (checkKeys W ["name".toList, "type".toList, "sinks".toList, "level".toList] (.sinkUnknownProperty n) e) :=
    tri_checkKeys W e _ _ (fun _ => rfl) fun _ => rfl
  unfold parseMultisink
  rcases fault_args h with ⟨h, _⟩ | ⟨h, _⟩ | ⟨h, _⟩ | ⟨t, h1, h2, rfl⟩ | ⟨x, k, h1, h2, h3, rfl⟩
  · exact absurd rfl h
  · exact absurd h (by decide)
  · exact absurd h (by decide)
  · exact Says.tail fun o => (says_level h1 h2).head fun l => Tri.bind t5 fun _ _ => t6 o l
  · exact Says.tail fun o => Says.tail fun l =>
      (says_keys (p := Problem.sinkUnknownProperty n) h1 h2 h3 (fun _ => rfl) fun _ => rfl).head fun _ => t6 o l

theorem says_sink {W : World} {i : Nat} {e : List (Nat × Nat)} {n type : Text} {p : Problem} (hn : textAt W e "name".toList = some n)
    (hs : n ≠ star) (ht : textAt W e "type".toList = some type)
    (hk : type ∈ ["console".toList, "file".toList, "syslog".toList, "multisink".toList]) (h : SinkFault W e n type p) :
    Says (parseSink W i e) p := by
  unfold parseSink
  rw [prop_of_text hn, prop_of_text ht]
  simp only [M.pure_bind']
  rw [if_neg hs]
  simp only [List.mem_cons, List.not_mem_nil, or_false] at hk
  rcases hk with rfl | rfl | rfl | rfl
  · rw [if_pos rfl]; exact says_console h
  · rw [if_neg (by decide), if_pos rfl]; exact says_file h
  · rw [if_neg (by decide), if_neg (by decide), if_pos rfl]; exact says_syslog h
  · rw [if_neg (by decide), if_neg (by decide), if_neg (by decide), if_pos rfl]; exact says_multi h

theorem says_sinkList {W : World} {n : Nat} {e : List (Nat × Nat)} {p : Problem} (hn : W.node n = .map e)
    (h : ∀ i, Says (parseSink W i e) p) (items : List Nat) (hi : n ∈ items) (i : Nat) : Says (parseSinkList W i items) p := by
  induction items generalizing i with
  | nil => cases hi
  | cons m ms ih =>
    unfold parseSinkList
    rcases List.mem_cons.1 hi with rfl | hi
    · refine Says.head ?_ fun _ => tri_parseSinkList W _ _
      unfold parseSinkItem
      rw [hn]
      exact h i
    · exact Says.tail fun _ => ih hi _

/-! ### groups -/

theorem says_group {W : World} {i : Nat} {e : List (Nat × Nat)} {parent : Option Text} {n : Text} {p : Problem}
    (hn : textAt W e "name".toList = some n) (h : GroupFault W e n p) : Says (readGroup W i e parent) p := by
  unfold readGroup
  simp only
  rw [prop_of_text hn]
  simp only [M.pure_bind']
  have hend : ∀ (sink : Option Text × Bool) (name : Option Text) (fb : Option Bool) (lo : Bool) (level : Option Level)
      (ch : Option (Option (List Nat))) (tmp : Text),
      Tri Emits Any (do
        (match sink.1 with
          | some k => do
            let o ← lookSink k
            if o.isSome then pure () else error (.groupUnknownSink tmp k)
          | none => pure () : M Unit)
        match name, fb, sink.2, lo, ch with
        | some name, some isFallback, true, true, some children =>
          pure (some { name, isFallback, sink := sink.1, level, children })
        | _, _, _, _, _ => do
          warning (.moreBugs tmp)
          pure none : M (Option GroupNode)) := by
    intro sink name fb lo level ch tmp
    refine Tri.bind (Q := Any) ?_ fun _ _ => ?_
    · split
      · refine Tri.bind (Q := Any) (Tri.lookSink _) fun o _ => ?_
        split
        · exact tri_pure _
        · exact emits_error _ rfl rfl
      · exact tri_pure _
    · split
      · exact tri_pure _
      · exact Tri.bind (Q := Any) (emits_warning _ rfl rfl) fun _ _ => tri_pure _
  cases h with
  | level h1 h2 =>
    refine Says.tail fun fb => Says.tail fun sink => Says.tail fun lo => Says.head (m := parseLevel W _ e) ?_ fun l => ?_
    · have he : "group ''".toList ++ n ++ "''".toList = "group '".toList ++ ("'".toList ++ n ++ "'".toList) ++ "'".toList := by
        simp only [List.append_assoc]
        rfl
      rw [he]
      exact says_level h1 h2
    · refine Tri.bind (Q := Any) ?_ fun ch _ => Tri.bind (Q := Any) (tri_checkKeys W e _ _ (fun _ => rfl) fun _ => rfl) fun _ _ => ?_
      · split
        · exact tri_pure _
        · exact tri_pure _
        · exact tri_pure _
        · exact Tri.bind (Q := Any) (emits_error _ rfl rfl) fun _ _ => tri_pure _
      · exact hend _ _ _ _ _ _ _
  | unknown h1 h2 h3 =>
    exact Says.tail fun fb => Says.tail fun sink => Says.tail fun lo => Says.tail fun l => Says.tail fun ch =>
      (says_keys (p := Problem.groupUnknownProperty ("'".toList ++ n ++ "'".toList)) h1 h2 h3 (fun _ => rfl) fun _ => rfl).head
        fun _ => hend _ _ _ _ _ _ _

theorem item_emits {W : World} {F f i m : Nat} {parent : Option Text} (hp : parent ≠ some star) :
    Tri Emits Any (parseGroupItem W (parseGroup W F f parent) i m) := by
  unfold parseGroupItem
  split
  · exact tri_parseGroup W F f i _ parent hp
  · exact emits_error _ rfl rfl

theorem list_emits {W : World} {F f i : Nat} {items : List Nat} {parent : Option Text} (hp : parent ≠ some star) :
    Tri Emits Any (parseGroupList W (parseGroup W F f parent) i items) :=
  tri_parseGroupList (P := Emits) W (fun i e => tri_parseGroup W F f i e parent hp) i items

theorem emits_mem {α : Type} {m : M α} (h : Tri Emits Any m) {s s' : St} {a : α} (he : m s = .ok a s') {p : Problem} (hp : p ∈ s.errors) :
    p ∈ s'.errors := by
  have h1 := h s
  rw [he] at h1
  obtain ⟨ps, h2, _⟩ := h1.1
  rw [h2]
  exact List.mem_append_left _ hp

/-- what is said about the node of a group at any depth -/
theorem says_under {W : World} {F n : Nat} {q parent : Option Text} {items : List Nat} {t : Table} (h : Under W t q n parent items)
    {e : List (Nat × Nat)} (hn : W.node n = .map e) {p : Problem} (hsay : ∀ i, Says (readGroup W i e q) p) :
    ∀ (f i : Nat) (s s' : St), parent ≠ some star → s.sys.sinks = t →
      parseGroupList W (parseGroup W F f parent) i items s = .ok () s' → p ∈ s'.errors := by
  induction h with
  | @here items hi =>
    intro f i s s' hp hs he
    induction items generalizing i s with
    | nil => cases hi
    | cons a as ihl =>
      unfold parseGroupList at he
      obtain ⟨_, s1, h1, h2⟩ := bind_ok he
      rcases List.mem_cons.1 hi with rfl | hi
      · refine emits_mem (list_emits hp) h2 ?_
        unfold parseGroupItem at h1
        rw [hn] at h1
        simp only at h1
        cases f with
        | zero => cases h1
        | succ f =>
          rw [parseGroup_succ] at h1
          obtain ⟨o, s2, h3, h4⟩ := bind_ok h1
          have h5 := hsay i s o s2 h3
          refine emits_mem ?_ h4 h5
          have hg : ∀ g, o = some g → GroupRead W e q g := by
            intro g hg
            have := tri_readGroup (P := Emits) W (fun _ => (Groups.noName (W := W) (F := F) _)) i e q s
            rw [h3] at this
            exact this.2 g hg
          unfold afterRead
          split
          · exact tri_pure _
          · rename_i g
            split
            · exact emits_error _ rfl rfl
            · rename_i hstar
              refine Tri.bind (Q := Any) (Groups.apply (W := W) hstar (hg g rfl) hp) fun _ _ => ?_
              split
              · exact list_emits fun h => hstar (Option.some.inj h)
              · exact tri_pure _
      · exact ihl hi (i + 1) s1 ((item_step hp h1).1.trans hs) h2
  | @deeper parent items m e' g hm hn' hu _ ih =>
    intro f i s s' hp hs he
    induction items generalizing i s with
    | nil => cases hm
    | cons a as ihl =>
      unfold parseGroupList at he
      obtain ⟨_, s1, h1, h2⟩ := bind_ok he
      have hst := item_step hp h1
      rcases List.mem_cons.1 hm with rfl | hm
      · refine emits_mem (list_emits hp) h2 ?_
        unfold parseGroupItem at h1
        rw [hn'] at h1
        simp only at h1
        cases f with
        | zero => cases h1
        | succ f =>
          rw [parseGroup_succ] at h1
          obtain ⟨o, s2, h3, h4⟩ := bind_ok h1
          obtain ⟨s2', hq, e2⟩ := read_readGroup W i e' parent s
          rw [e2] at h3
          simp only at h3
          cases hg : groupAt W e' parent s.sys.sinks with
          | none => rw [hg] at h3; cases h3
          | some o' =>
            rw [hg] at h3
            cases h3
            have ho := groupAt_useless hg (by rw [hs]; exact hu)
            subst ho
            simp only [afterRead, if_neg hu.notStar] at h4
            obtain ⟨_, s3, h5, h6⟩ := bind_ok h4
            have hs3 : s3.sys.sinks = s.sys.sinks := by
              have htri2 := tri_applyGroup (P := SameSinks) (W := W) (F := F) (g := g) (entries := e') (parent := parent)
                (fun _ _ _ _ ho h => (step_sinks ho.1 ho.2 h).2.1) hu.notStar
                ((tri_readGroup (P := SameSinks) W (fun _ => (Groups.noName (W := W) (F := F) _)) i e' parent s |> fun h3 => by
                    rw [e2] at h3
                    simp only [hg, give] at h3
                    exact h3.2 g rfl)) hp s2
              rw [h5] at htri2
              have h7 : s3.sys.sinks = s2.sys.sinks := htri2.1
              rw [h7, hq.1]
            cases hc : g.children with
            | none =>
              rw [hc] at ih
              exact ih 0 0 s1 s1 (fun h => hu.notStar (Option.some.inj h)) (hst.1.trans hs) rfl
            | some cs =>
              rw [hc] at h6 ih
              exact ih f 0 s3 s1 (fun h => hu.notStar (Option.some.inj h)) (hs3.trans hs) h6
      · exact ihl hm (i + 1) s1 (hst.1.trans hs) h2

end Yaml
end Soralog
