import Verif.Proofs.HappensBefore
import Verif.Model.Race
import Verif.Proofs.Ring
/-!
# The queue respects its flags
-/
namespace Soralog
namespace Race
open Ring (inCS slotOf Inv upd_same upd_ne upd_inv)

variable {T : Type}

/-- a slot is guarded by its `busy` flag, staging buffer and stream by `flush_in_progress_` -/
instance sinkGuard : Guard Flag Loc where
  guard
    | .slot k => some (.node k)
    | _ => some .flush

theorem sinkGuard_total (x : Loc) : (guard x : Option Flag) ≠ none := by cases x <;> nofun

/-- the thread has captured the slot: in a call, or through a `NodeRef` -/
def Has (pc : Tid → Ring.PC T) (refs : List (Ring.Ref T)) (t : Tid) (k : Nat) : Prop :=
  slotOf (pc t) = some k ∨ ∃ r ∈ refs, r.slot = k ∧ r.owner = t

/-- the flags of the trace are those of the state -/
structure RingHeld (s : Ring.St T) (tr : Trace) : Prop where
  lock : ∀ t, held .lock tr = some t ↔ inCS (s.pc t) = true
  node : ∀ k t, held (.node k) tr = some t ↔ Has s.pc s.refs t k

theorem has_pc {pc : Tid → Ring.PC T} {refs : List (Ring.Ref T)} {t : Tid} {p : Ring.PC T} (h : slotOf p = slotOf (pc t)) (u : Tid) (k : Nat) :
    Has (upd pc t p) refs u k ↔ Has pc refs u k := by
  unfold Has
  rw [upd_inv slotOf h]

theorem has_ref {pc : Tid → Ring.PC T} {refs : List (Ring.Ref T)} {t : Tid} {p : Ring.PC T} {r : Ring.Ref T} (h : slotOf p = none)
    (hs : slotOf (pc t) = some r.slot) (ho : r.owner = t) (u : Tid) (k : Nat) :
    Has (upd pc t p) (refs ++ [r]) u k ↔ Has pc refs u k := by
  unfold Has
  by_cases e : u = t
  · subst e
    rw [upd_same, h, hs]
    simp only [reduceCtorEq, List.mem_append, List.mem_singleton, false_or, Option.some.injEq]
    constructor
    · rintro ⟨x, hx | hx, h1, h2⟩
      · exact .inr ⟨x, hx, h1, h2⟩
      · subst hx; exact .inl h1
    · rintro (h1 | ⟨x, hx, h1, h2⟩)
      · exact ⟨r, .inr rfl, h1, ho⟩
      · exact ⟨x, .inl hx, h1, h2⟩
  · rw [upd_ne _ _ _ _ e]
    simp only [List.mem_append, List.mem_singleton]
    constructor
    · rintro (h1 | ⟨x, hx | hx, h1, h2⟩)
      · exact .inl h1
      · exact .inr ⟨x, hx, h1, h2⟩
      · subst hx; exact absurd (h2.symm.trans ho) e
    · rintro (h1 | ⟨x, hx, h1, h2⟩)
      · exact .inl h1
      · exact .inr ⟨x, .inl hx, h1, h2⟩

theorem has_new {pc : Tid → Ring.PC T} {refs : List (Ring.Ref T)} {t : Tid} {p : Ring.PC T} {n : Nat} (h : slotOf p = some n)
    (hs : slotOf (pc t) = none) (u : Tid) (k : Nat) : Has (upd pc t p) refs u k ↔ (Has pc refs u k ∨ (u = t ∧ k = n)) := by
  unfold Has
  by_cases e : u = t
  · subst e
    rw [upd_same, h, hs]
    simp only [reduceCtorEq, Option.some.injEq, false_or, true_and]
    constructor
    · rintro (h1 | h1)
      · exact .inr h1.symm
      · exact .inl h1
    · rintro (h1 | h1)
      · exact .inr h1
      · exact .inl h1.symm
  · rw [upd_ne _ _ _ _ e]
    simp only [e, false_and, or_false]

/-- What one step of a thread in the queue does. -/
inductive Kind (s s' : Ring.St T) (t : Tid) : List Ev → Prop
  | silent (h1 : ∀ u, inCS (s'.pc u) = inCS (s.pc u)) (h2 : ∀ u k, Has s'.pc s'.refs u k ↔ Has s.pc s.refs u k) : Kind s s' t []
  | lock (h1 : ∀ u, inCS (s'.pc u) = true ↔ u = t) (hf : ∀ u, inCS (s.pc u) = false) (h2 : ∀ u k, Has s'.pc s'.refs u k ↔ Has s.pc s.refs u k) :
      Kind s s' t [.acquire .lock]
  | unlock (h1 : ∀ u, inCS (s'.pc u) = false) (hf : inCS (s.pc t) = true) (h2 : ∀ u k, Has s'.pc s'.refs u k ↔ Has s.pc s.refs u k) :
      Kind s s' t [.release .lock]
  | take (n : Nat) (h1 : ∀ u, inCS (s'.pc u) = inCS (s.pc u)) (hf : ∀ u, ¬ Has s.pc s.refs u n)
      (h2 : ∀ u k, Has s'.pc s'.refs u k ↔ (Has s.pc s.refs u k ∨ (u = t ∧ k = n))) : Kind s s' t [.acquire (.node n)]
  | store (n : Nat) (h1 : ∀ u, inCS (s'.pc u) = inCS (s.pc u)) (hh : Has s.pc s.refs t n)
      (h2 : ∀ u k, Has s'.pc s'.refs u k ↔ Has s.pc s.refs u k) : Kind s s' t [.write (.slot n)]

theorem tick_kind {cap : Nat} {s : Ring.St T} {q : List T} {base : Nat} (hI : Inv cap s q base) (t : Tid) :
    Kind s (Ring.tick s t) t (tickEvents s t) := by
  have free : ∀ {k : Nat}, ¬ s.buf.nodeBusy k = true → ∀ u, ¬ Has s.pc s.refs u k := by
    intro k hk u hh
    refine hk ((hI.owned k).2 ?_)
    rcases hh with h | ⟨r, h1, h2, _⟩
    · exact .inl ⟨u, h⟩
    · exact .inr ⟨r, h1, h2⟩
  have unl : ¬ s.buf.busy = true → ∀ u, inCS (s.pc u) = false := by
    intro hb u
    cases e : inCS (s.pc u)
    · rfl
    · exact absurd (hI.lock.2 ⟨u, e⟩) hb
  have locks : ∀ {p : Ring.PC T}, inCS p = true → (∀ u, inCS (s.pc u) = false) → ∀ u, inCS (upd s.pc t p u) = true ↔ u = t := by
    intro p hp hf u
    by_cases e : u = t
    · subst e; rw [upd_same]; exact ⟨fun _ => rfl, fun _ => hp⟩
    · rw [upd_ne _ _ _ _ e, hf u]; exact ⟨nofun, fun h => absurd h e⟩
  have unlocks : ∀ {p : Ring.PC T}, inCS p = false → inCS (s.pc t) = true → ∀ u, inCS (upd s.pc t p u) = false := by
    intro p hp hc u
    by_cases e : u = t
    · subst e; rw [upd_same]; exact hp
    · rw [upd_ne _ _ _ _ e]
      cases h : inCS (s.pc u)
      · rfl
      · exact absurd (hI.excl _ _ h hc) e
  unfold Ring.tick tickEvents
  cases hp : s.pc t
  all_goals dsimp only
  case idle => exact .silent (fun _ => rfl) (fun _ _ => Iff.rfl)
  case putSpin v =>
    split
    · exact .silent (fun _ => rfl) (fun _ _ => Iff.rfl)
    · exact .lock (locks rfl (unl ‹_›)) (unl ‹_›) (has_pc (by rw [hp]; rfl))
  case getSpin =>
    split
    · exact .silent (fun _ => rfl) (fun _ _ => Iff.rfl)
    · exact .lock (locks rfl (unl ‹_›)) (unl ‹_›) (has_pc (by rw [hp]; rfl))
  case obsSpin c =>
    split
    · exact .silent (fun _ => rfl) (fun _ _ => Iff.rfl)
    · exact .lock (locks rfl (unl ‹_›)) (unl ‹_›) (has_pc (by rw [hp]; rfl))
  case putCheck v =>
    split <;> exact .silent (upd_inv inCS (by rw [hp]; rfl)) (has_pc (by rw [hp]; rfl))
  case getCheck =>
    split <;> exact .silent (upd_inv inCS (by rw [hp]; rfl)) (has_pc (by rw [hp]; rfl))
  case putCapture v =>
    split
    · exact .silent (fun _ => rfl) (fun _ _ => Iff.rfl)
    · split
      · exact .silent (upd_inv inCS (by rw [hp]; rfl)) (has_pc (by rw [hp]; rfl))
      · exact .take _ (upd_inv inCS (by rw [hp]; rfl)) (free ‹_›) (has_new rfl (by rw [hp]; rfl))
  case getCapture =>
    split
    · exact .silent (fun _ => rfl) (fun _ _ => Iff.rfl)
    · split
      · exact .silent (upd_inv inCS (by rw [hp]; rfl)) (has_pc (by rw [hp]; rfl))
      · exact .take _ (upd_inv inCS (by rw [hp]; rfl)) (free ‹_›) (has_new rfl (by rw [hp]; rfl))
  case putAdvance v k =>
    split
    · exact .silent (fun _ => rfl) (fun _ _ => Iff.rfl)
    · exact .silent (upd_inv inCS (by rw [hp]; rfl)) (has_pc (by rw [hp]; rfl))
  case getAdvance k =>
    split
    · exact .silent (fun _ => rfl) (fun _ _ => Iff.rfl)
    · exact .silent (upd_inv inCS (by rw [hp]; rfl)) (has_pc (by rw [hp]; rfl))
  case putCount v k =>
    split
    · exact .silent (upd_inv inCS (by rw [hp]; rfl)) (has_pc (by rw [hp]; rfl))
    · exact .silent (fun _ => rfl) (fun _ _ => Iff.rfl)
  case getCount k =>
    split
    · exact .silent (fun _ => rfl) (fun _ _ => Iff.rfl)
    · cases s.buf.item k
      · exact .silent (fun _ => rfl) (fun _ _ => Iff.rfl)
      · exact .silent (upd_inv inCS (by rw [hp]; rfl)) (has_pc (by rw [hp]; rfl))
  case putInit v k => exact .store k (upd_inv inCS (by rw [hp]; rfl)) (.inl (by rw [hp]; rfl)) (has_pc (by rw [hp]; rfl))
  case putBuild v k => exact .store k (upd_inv inCS (by rw [hp]; rfl)) (.inl (by rw [hp]; rfl)) (has_ref rfl (by rw [hp]; rfl) rfl)
  case getUnlock k v => exact .unlock (unlocks rfl (by rw [hp]; rfl)) (by rw [hp]; rfl) (has_ref rfl (by rw [hp]; rfl) rfl)
  case obsRead c => exact .silent (upd_inv inCS (by rw [hp]; rfl)) (has_pc (by rw [hp]; rfl))
  all_goals exact .unlock (unlocks rfl (by rw [hp]; rfl)) (by rw [hp]; rfl) (has_pc (by rw [hp]; rfl))

/-- a step that only makes events of one thread which concern the queue leaves the other flags alone -/
def ringEv : Ev → Bool
  | .acquire .lock | .acquire (.node _) | .release .lock | .release (.node _) | .read (.slot _) | .write (.slot _) => true
  | _ => false

/-- what an extension of the trace does to the queue -/
structure Ext (s' : Ring.St T) (tr l : Trace) (t : Tid) : Prop where
  disc : Disc (tr ++ l)
  held : RingHeld s' (tr ++ l)
  only : ∀ e ∈ l, e.1 = t ∧ ringEv e.2 = true

theorem kind_ext {s s' : Ring.St T} {t : Tid} {l : List Ev} (k : Kind s s' t l) {tr : Trace} (hd : Disc tr) (hh : RingHeld s tr) :
    Ext s' tr (l.map (t, ·)) t := by
  cases k with
  | silent h1 h2 =>
    simp only [List.map_nil]
    refine ⟨by simpa using hd, ?_, nofun⟩
    rw [List.append_nil]
    exact ⟨fun u => by rw [h1 u]; exact hh.lock u, fun k u => by rw [h2]; exact hh.node k u⟩
  | lock h1 hf h2 =>
    have hn : held .lock tr = none := by
      cases e : held .lock tr with
      | none => rfl
      | some u => have := (hh.lock u).1 e; rw [hf u] at this; cases this
    refine ⟨.snoc hd hn, ⟨fun u => ?_, fun k u => ?_⟩, by simp [ringEv]⟩
    · simp only [List.map_cons, List.map_nil, held_snoc, if_pos, Option.some.injEq, h1]; exact eq_comm
    · simp only [List.map_cons, List.map_nil, held_snoc, reduceCtorEq, if_false, h2]; exact hh.node k u
  | unlock h1 hf h2 =>
    refine ⟨.snoc hd ((hh.lock t).2 hf), ⟨fun u => ?_, fun k u => ?_⟩, by simp [ringEv]⟩
    · simp only [List.map_cons, List.map_nil, held_snoc, if_pos, reduceCtorEq, h1, Bool.false_eq_true]
    · simp only [List.map_cons, List.map_nil, held_snoc, reduceCtorEq, if_false, h2]; exact hh.node k u
  | take n h1 hf h2 =>
    have hn : held (.node n) tr = none := by
      cases e : held (.node n) tr with
      | none => rfl
      | some u => exact absurd ((hh.node n u).1 e) (hf u)
    refine ⟨.snoc hd hn, ⟨fun u => ?_, fun k u => ?_⟩, by simp [ringEv]⟩
    · simp only [List.map_cons, List.map_nil, held_snoc, reduceCtorEq, if_false, h1]; exact hh.lock u
    · simp only [List.map_cons, List.map_nil, held_snoc, Flag.node.injEq, h2]
      by_cases e : n = k
      · subst e
        simp only [if_pos, Option.some.injEq, hf u, false_or, and_true]; exact eq_comm
      · rw [if_neg e]
        simp only [Ne.symm e, and_false, or_false]; exact hh.node k u
  | store n h1 hs h2 =>
    refine ⟨.snoc hd (fun _ e => by cases e; exact (hh.node n t).2 hs), ⟨fun u => ?_, fun k u => ?_⟩, by simp [ringEv]⟩
    · simp only [List.map_cons, List.map_nil, held_snoc, h1]; exact hh.lock u
    · simp only [List.map_cons, List.map_nil, held_snoc, h2]; exact hh.node k u

theorem tick_ext {cap : Nat} {s : Ring.St T} {q : List T} {base : Nat} (hI : Inv cap s q base) (t : Tid) {tr : Trace} (hd : Disc tr)
    (hh : RingHeld s tr) : Ext (Ring.tick s t) tr ((tickEvents s t).map (t, ·)) t := kind_ext (tick_kind hI t) hd hh

theorem call_held {s : Ring.St T} {tr : Trace} (hh : RingHeld s tr) (t : Tid) (c : Spec.Call T) : RingHeld (Ring.call s t c) tr := by
  unfold Ring.call
  cases hp : s.pc t
  case idle =>
    dsimp only
    refine ⟨fun u => ?_, fun k u => ?_⟩
    · rw [hh.lock u]; dsimp only; rw [upd_inv inCS (by rw [hp]; cases c <;> rfl)]
    · rw [hh.node k u]; dsimp only; rw [has_pc (by rw [hp]; cases c <;> rfl)]
  all_goals exact hh

theorem mem_eraseIdx_slot {refs : List (Ring.Ref T)} (hn : (refs.map Ring.Ref.slot).Nodup) {i : Nat} {r : Ring.Ref T} (hi : refs[i]? = some r)
    (x : Ring.Ref T) : x ∈ refs.eraseIdx i ↔ x ∈ refs ∧ x.slot ≠ r.slot := by
  induction refs generalizing i with
  | nil => simp at hi
  | cons y ys ih =>
    rw [List.map_cons, List.nodup_cons] at hn
    cases i with
    | zero =>
      cases hi
      simp only [List.eraseIdx_cons_zero, List.mem_cons]
      constructor
      · intro h
        exact ⟨.inr h, fun e => hn.1 (e ▸ List.mem_map_of_mem h)⟩
      · rintro ⟨h | h, h2⟩
        · exact absurd (h ▸ rfl) h2
        · exact h
    | succ i =>
      have hi : ys[i]? = some r := by simpa using hi
      simp only [List.eraseIdx_cons_succ, List.mem_cons, ih hn.2 hi]
      constructor
      · rintro (h | ⟨h, h2⟩)
        · subst h
          exact ⟨.inl rfl, fun e => hn.1 (e ▸ List.mem_map_of_mem (List.mem_of_getElem? hi))⟩
        · exact ⟨.inr h, h2⟩
      · rintro ⟨h | h, h2⟩
        · exact .inl h
        · exact .inr ⟨h, h2⟩

theorem drop_ext {cap : Nat} {s : Ring.St T} {q : List T} {base : Nat} (hI : Inv cap s q base) {i : Nat} {r : Ring.Ref T}
    (hi : s.refs[i]? = some r) {tr : Trace} (hd : Disc tr) (hh : RingHeld s tr) : Ext (Ring.drop s i) tr (dropEvents s i) r.owner := by
  have hr := List.mem_of_getElem? hi
  have hown : Has s.pc s.refs r.owner r.slot := .inr ⟨r, hr, rfl, rfl⟩
  unfold Ring.drop dropEvents
  rw [hi]
  dsimp only
  refine ⟨.snoc hd ((hh.node _ _).2 hown), ⟨fun u => ?_, fun k u => ?_⟩, by simp [ringEv]⟩
  · simp only [held_snoc, reduceCtorEq, if_false]; exact hh.lock u
  · simp only [held_snoc, Flag.node.injEq]
    have hx : Has s.pc (s.refs.eraseIdx i) u k ↔ (Has s.pc s.refs u k ∧ k ≠ r.slot) := by
      unfold Has
      simp only [mem_eraseIdx_slot hI.uniqR hi]
      constructor
      · rintro (h | ⟨x, ⟨h1, h2⟩, h3, h4⟩)
        · exact ⟨.inl h, fun e => hI.uniqTR _ _ h r hr e.symm⟩
        · exact ⟨.inr ⟨x, h1, h3, h4⟩, fun e => h2 (h3.trans e)⟩
      · rintro ⟨h | ⟨x, h1, h3, h4⟩, h2⟩
        · exact .inl h
        · exact .inr ⟨x, ⟨h1, fun e => h2 (h3.symm.trans e)⟩, h3, h4⟩
    rw [hx]
    by_cases e : r.slot = k
    · rw [if_pos e]; simp [e]
    · rw [if_neg e]; simp only [ne_eq, Ne.symm e, not_false_eq_true, and_true]; exact hh.node k u

theorem read_ext {s : Ring.St T} {i : Nat} {r : Ring.Ref T} (hi : s.refs[i]? = some r) {tr : Trace} (hd : Disc tr) (hh : RingHeld s tr) :
    Ext s tr (readEvents s i) r.owner := by
  have hr := List.mem_of_getElem? hi
  have hown : Has s.pc s.refs r.owner r.slot := .inr ⟨r, hr, rfl, rfl⟩
  unfold readEvents
  rw [hi]
  dsimp only
  refine ⟨.snoc hd (fun _ e => by cases e; exact (hh.node _ _).2 hown), ⟨fun u => ?_, fun k u => ?_⟩, by simp [ringEv]⟩
  · simp only [held_snoc]; exact hh.lock u
  · simp only [held_snoc]; exact hh.node k u

theorem held_init (cap : Nat) : RingHeld (Ring.init T cap) [] := by
  refine ⟨fun t => ?_, fun k t => ?_⟩
  · simp [held, Ring.init, inCS]
  · simp [held, Ring.init, Has, slotOf]

/-- the queue respects its flags in every execution -/
theorem queue_disc {cap : Nat} (hc : 0 < cap) (as : List (QAct T)) :
    (∃ q base, Inv cap (queueRun T cap as).1 q base) ∧ Disc (queueRun T cap as).2 ∧ RingHeld (queueRun T cap as).1 (queueRun T cap as).2 := by
  unfold queueRun
  suffices h : ∀ (x : Ring.St T × Trace), ((∃ q base, Inv cap x.1 q base) ∧ Disc x.2 ∧ RingHeld x.1 x.2) →
      (∃ q base, Inv cap (as.foldl queueAct x).1 q base) ∧ Disc (as.foldl queueAct x).2 ∧
        RingHeld (as.foldl queueAct x).1 (as.foldl queueAct x).2 from
    h _ ⟨⟨_, _, Ring.inv_init hc⟩, .nil, held_init cap⟩
  induction as with
  | nil => exact fun x hx => hx
  | cons a as ih =>
    rintro ⟨s, tr⟩ ⟨⟨q, base, hI⟩, hd, hh⟩
    apply ih
    cases a with
    | act a =>
      have hI' := Ring.inv_act hI a
      cases a with
      | call t c => exact ⟨hI', hd, call_held hh t c⟩
      | step t =>
        have := tick_ext hI t hd hh
        exact ⟨hI', this.disc, this.held⟩
      | drop i =>
        refine ⟨hI', ?_⟩
        cases e : s.refs[i]? with
        | none => simp only [queueAct, Ring.drop, dropEvents, e, List.append_nil]; exact ⟨hd, hh⟩
        | some r =>
          have := drop_ext hI e hd hh
          exact ⟨this.disc, this.held⟩
    | read i =>
      refine ⟨⟨q, base, hI⟩, ?_⟩
      cases e : s.refs[i]? with
      | none => simp only [queueAct, readEvents, e, List.append_nil]; exact ⟨hd, hh⟩
      | some r =>
        have := read_ext e hd hh
        exact ⟨this.disc, this.held⟩

end Race
end Soralog
