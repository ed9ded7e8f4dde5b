import Verif.Proofs.Unopened
import Verif.Props.SinkConcMore
/-!
# C24 for a file that could not be opened at first
-/
namespace Soralog
namespace SinkConc

/-- **C24**, a file that could not be opened at first: under every schedule the events whose records have been handed to the stream are a contiguous part
of the accepted events, each once and in order; nothing is written before the file is open; and when nobody is inside `flush`, the events that have left
the queue are those that left it before the file was open, followed by exactly the written ones. -/
theorem C24_unopened_file (c : Cfg) (o : Bool) (hk : c.isSyslog = false) (s : St) (h : Reach c o s) :
    s.written <:+: s.put ∧ (s.isOpen = false → s.written = []) ∧
    (s.flag = false → ∃ lost, s.put.take s.taken = lost ++ s.written) := by
  obtain ⟨lost, hl⟩ := flowL_reach hk h
  refine ⟨?_, hl.shut, fun hf => ⟨lost, hl.free hf⟩⟩
  cases hf : s.flag with
  | false =>
    have := hl.free hf
    exact (List.IsSuffix.isInfix ⟨lost, this.symm⟩).trans (List.take_prefix _ _).isInfix
  | true =>
    obtain ⟨t, ht⟩ := (excl_reach h).free hf
    have := hl.body t ht
    refine List.IsInfix.trans ?_ (List.take_prefix s.taken s.put).isInfix
    exact ⟨lost, (s.pc t).flight, by rw [this, List.append_assoc]⟩

/-- `Later c s s'`: `s'` can be reached from `s`. -/
inductive Later (c : Cfg) (s : St) : St → Prop where
  | refl : Later c s s
  | next {s' s'' : St} : Later c s s' → Exec c s' s'' → Later c s s''

theorem exec_open {c : Cfg} {s s' : St} (he : Exec c s s') (h : s.isOpen = true) : s'.isOpen = true := by
  cases he with
  | call t ht hi hd call => exact h
  | step t ch => exact step_isOpen c s t ch h
  | destroy t ht hd hi => exact h

theorem flowL_later {c : Cfg} {o : Bool} (hk : c.isSyslog = false) {s s' : St} {lost : List Event} (h : Reach c o s) (hl : FlowL lost s)
    (ho : s.isOpen = true) (hlat : Later c s s') : Reach c o s' ∧ s'.isOpen = true ∧ FlowL lost s' := by
  induction hlat with
  | refl => exact ⟨h, ho, hl⟩
  | @next s1 s2 _ he ih =>
    obtain ⟨i1, i2, i3⟩ := ih
    obtain ⟨l', e, g⟩ := flowL_exec hk i1 he i3
    rw [e i2] at g
    exact ⟨.next i1 he, exec_open he i2, g⟩

/-- **C24**, once the file is open nothing more is lost: take any moment at which the file is open and nobody is inside `flush`; at every later moment at
which nobody is, what has been handed to the stream since then is exactly what has left the queue since then, in order, each once. -/
theorem C24_once_open (c : Cfg) (o : Bool) (hk : c.isSyslog = false) (s s' : St) (h : Reach c o s) (ho : s.isOpen = true)
    (hf : s.flag = false) (hlat : Later c s s') (hf' : s'.flag = false) :
    ∃ new, s'.written = s.written ++ new ∧ s'.put.take s'.taken = s.put.take s.taken ++ new := by
  obtain ⟨lost, hl⟩ := flowL_reach hk h
  obtain ⟨h1, h2, h3⟩ := flowL_later hk h hl ho hlat
  have hw : s.written <+: s'.written := by
    clear hf' h1 h2 h3 hl hf
    suffices Reach c o s' ∧ s.written <+: s'.written from this.2
    induction hlat with
    | refl => exact ⟨h, List.prefix_rfl⟩
    | @next s1 s2 _ he ih => exact ⟨.next ih.1 he, ih.2.trans (C24_history_only_grows c o s1 s2 ih.1 he).2⟩
  obtain ⟨new, hn⟩ := hw
  exact ⟨new, hn.symm, by rw [h3.free hf', ← hn, hl.free hf, List.append_assoc]⟩

/-- "a" is logged before the file can be opened, then it is rotated (flush re-opens it), then "b" is logged -/
def lateOpen : St := (exec (exampleCfg true)
  [.call 1 (.push (ev ['a'])), .run 1 40, .call 1 .rotate, .run 1 40, .call 1 (.push (ev ['b'])), .run 1 40, .call 1 .flush, .run 1 40]
  (init (exampleCfg true) false)).get (by decide +kernel)

def justOpened : St := (exec (exampleCfg true)
  [.call 1 (.push (ev ['a'])), .run 1 40, .call 1 .rotate, .run 1 40] (init (exampleCfg true) false)).get (by decide +kernel)

example : Reach (exampleCfg true) false lateOpen ∧ lateOpen.put.map (·.message) = [['a'], ['b']] ∧
    lateOpen.written.map (·.message) = [['b']] ∧ lateOpen.flag = false :=
  ⟨exec_reach .init (Option.some_get _).symm, by decide +kernel, by decide +kernel, by decide +kernel⟩

example : Reach (exampleCfg true) false justOpened ∧ justOpened.isOpen = true ∧ justOpened.flag = false ∧
    justOpened.put.map (·.message) = [['a']] ∧ justOpened.written = [] :=
  ⟨exec_reach .init (Option.some_get _).symm, by decide +kernel, by decide +kernel, by decide +kernel, by decide +kernel⟩

end SinkConc
end Soralog
