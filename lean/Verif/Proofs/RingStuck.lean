import Verif.Proofs.RingProgress
/-! # A thread that never finishes constructing its element -/
namespace Soralog
namespace Ring
open Spec (Call Ret Entry)
variable {T : Type}

/-! ## what it blocks -/

/-- the oldest element is under construction by `t`, nobody is about to return from `get` -/
structure Jam (cap : Nat) (t : Tid) (k : Nat) (s : St T) : Prop where
  inv : ∃ q, Inv cap s q k
  busy : Constructing s t k
  quiet : ∀ u, s.pc u ≠ .getEmpty ∧ ∀ a b, s.pc u ≠ .getUnlock a b

theorem constructing_slot {s : St T} {t : Tid} {k : Nat} (h : Constructing s t k) : slotOf (s.pc t) = some k := by
  obtain ⟨v, h | h⟩ := h <;> rw [h] <;> rfl

theorem Jam.size {cap : Nat} {t : Tid} {k : Nat} {s : St T} (h : Jam cap t k s) : 0 < s.buf.size := by
  obtain ⟨q, hI⟩ := h.inv
  have := hI.pcs t
  obtain ⟨v, hv | hv⟩ := h.busy <;> rw [hv] at this <;> obtain ⟨i, hi, _⟩ := this <;> omega

theorem Jam.node {cap : Nat} {t : Tid} {k : Nat} {s : St T} (h : Jam cap t k s) : s.buf.nodeBusy k = true := by
  obtain ⟨q, hI⟩ := h.inv
  exact (hI.owned k).2 (.inl ⟨t, constructing_slot h.busy⟩)

/-- entries that are not answers of `get` -/
def NoGets (l : List (Entry T)) : Prop :=
  (∀ u r, Entry.ret u r ∈ l → r ≠ .empty ∧ ∀ v, r ≠ .got v) ∧ Spec.getsOf l = []

theorem noGets_nil : NoGets ([] : List (Entry T)) := ⟨fun _ _ h => (by cases h), rfl⟩

theorem noGets_append {a b : List (Entry T)} (ha : NoGets a) (hb : NoGets b) : NoGets (a ++ b) := by
  refine ⟨fun u r h => ?_, ?_⟩
  · rcases List.mem_append.1 h with h | h
    · exact ha.1 u r h
    · exact hb.1 u r h
  · unfold Spec.getsOf
    rw [List.filterMap_append]
    have h1 := ha.2
    have h2 := hb.2
    unfold Spec.getsOf at h1 h2
    rw [h1, h2]; rfl

theorem noGets_ret (u : Tid) (r : Ret T) (h1 : r ≠ .empty) (h2 : ∀ v, r ≠ .got v) : NoGets [Entry.ret u r] := by
  refine ⟨fun u' r' h => ?_, rfl⟩
  cases List.mem_singleton.1 h
  exact ⟨h1, h2⟩

theorem noGets_lin (u : Tid) (c : Call T) (r : Ret T) (h2 : ∀ v, r ≠ .got v) : NoGets [Entry.lin u c r] := by
  refine ⟨fun u' r' h => (by cases List.mem_singleton.1 h), ?_⟩
  unfold Spec.getsOf
  cases c <;> cases r <;> first | rfl | exact absurd rfl (h2 _)

theorem noGets_inv (u : Tid) (c : Call T) : NoGets [Entry.inv u c] :=
  ⟨fun u' r' h => (by cases List.mem_singleton.1 h), rfl⟩

theorem Jam.tick {cap : Nat} {t : Tid} {k : Nat} {s : St T} (h : Jam cap t k s) {u : Tid} (hu : u ≠ t) :
    Jam cap t k (tick s u) ∧ ∃ l, (Ring.tick s u).log = s.log ++ l ∧ NoGets l := by
  have hsz := h.size
  have hnode := h.node
  obtain ⟨q, hI⟩ := h.inv
  have hslot := constructing_slot h.busy
  have hnc : ∀ a, s.pc u ≠ .getCount a := by
    intro a ha
    have hp := hI.pcs u
    rw [ha] at hp
    exact hu (hI.uniqT u t k (by rw [ha]; exact congrArg some hp.1) hslot)
  have hbase : nextBase cap (s.pc u) k = k := by
    cases hp : s.pc u <;> first | rfl | exact absurd hp (hnc _)
  have hI' := inv_tick_exact hI u
  rw [hbase] at hI'
  have hcon : Constructing (Ring.tick s u) t k := by
    unfold Constructing
    rw [tick_pc_other _ _ _ (Ne.symm hu)]; exact h.busy
  have hq : (Ring.tick s u).pc u ≠ .getEmpty ∧ ∀ a b, (Ring.tick s u).pc u ≠ .getUnlock a b := by
    unfold Ring.tick
    generalize hp : s.pc u = p at hnc
    have h0 := h.quiet u
    rw [hp] at h0
    cases p <;> dsimp only <;> (try split) <;> (try split) <;> simp_all [upd] <;> omega
  refine ⟨⟨⟨_, hI'⟩, hcon, fun v => ?_⟩, ?_⟩
  · by_cases hv : v = u
    · subst hv; exact hq
    · rw [tick_pc_other _ _ _ hv]; exact h.quiet v
  · have h0 := h.quiet u
    unfold Ring.tick
    generalize hp : s.pc u = p at hnc h0
    have triv : ∃ l, s.log = s.log ++ l ∧ NoGets l := ⟨[], (List.append_nil _).symm, noGets_nil⟩
    have put1 : ∀ l, NoGets l → ∃ l', s.log ++ l = s.log ++ l' ∧ NoGets l' := fun l h => ⟨l, rfl, h⟩
    cases p with
    | getEmpty => exact absurd rfl h0.1
    | getUnlock a b => exact absurd rfl (h0.2 a b)
    | getCount a => exact absurd rfl (hnc a)
    | putFull v => exact put1 _ (noGets_ret _ _ (by simp) (by simp))
    | putBuild v k => exact put1 _ (noGets_ret _ _ (by simp) (by simp))
    | obsUnlock c n => exact put1 _ (noGets_ret _ _ (by simp) (by simp))
    | obsRead c => exact put1 _ (noGets_lin _ _ _ (by simp))
    | getCheck =>
      dsimp only
      rw [if_neg (fun hx => by have := hx.2; omega)]
      exact triv
    | putCheck v =>
      dsimp only
      split
      · exact put1 _ (noGets_lin _ _ _ (by simp))
      · exact triv
    | putCount v k =>
      dsimp only
      split
      · exact put1 _ (noGets_lin _ _ _ (by simp))
      · exact triv
    | _ => dsimp only <;> (try split) <;> (try split) <;> exact triv

theorem Jam.act {cap : Nat} {t : Tid} {k : Nat} {s : St T} (h : Jam cap t k s) (a : Act T)
    (ha : match a with | .step u => u ≠ t | _ => True) : Jam cap t k (act s a) ∧ ∃ l, (act s a).log = s.log ++ l ∧ NoGets l := by
  have triv : ∃ l, s.log = s.log ++ l ∧ NoGets l := ⟨[], (List.append_nil _).symm, noGets_nil⟩
  cases a with
  | step u => exact h.tick ha
  | drop i =>
    obtain ⟨q, hI⟩ := h.inv
    refine ⟨⟨⟨q, inv_drop hI i⟩, ?_, ?_⟩, ?_⟩
    · show Constructing (drop s i) t k
      unfold Constructing; rw [drop_pc]; exact h.busy
    · intro u
      have e : (Ring.act s (.drop i)).pc u = s.pc u := by show (drop s i).pc u = _; rw [drop_pc]
      rw [e]; exact h.quiet u
    · show ∃ l, (drop s i).log = _ ∧ _
      unfold drop; split <;> exact triv
  | call u c =>
    obtain ⟨q, hI⟩ := h.inv
    by_cases hidle : s.pc u = .idle
    · have hut : t ≠ u := by
        rintro rfl
        obtain ⟨v, hv | hv⟩ := h.busy <;> rw [hidle] at hv <;> cases hv
      refine ⟨⟨⟨q, inv_call hI u c⟩, ?_, ?_⟩, ?_⟩
      · show Constructing (call s u c) t k
        unfold Constructing call; rw [hidle]; dsimp only
        rw [upd_ne _ _ _ _ hut]; exact h.busy
      · intro v
        by_cases hv : v = u
        · subst hv
          unfold Ring.act call; dsimp only; rw [hidle]; dsimp only; rw [upd_same]; cases c <;> simp
        · have e : (Ring.act s (.call u c)).pc v = s.pc v := by
            show (call s u c).pc v = _
            unfold call; rw [hidle]; dsimp only; rw [upd_ne _ _ _ _ hv]
          rw [e]; exact h.quiet v
      · show ∃ l, (call s u c).log = _ ∧ _
        unfold call; rw [hidle]
        exact ⟨_, rfl, noGets_inv _ _⟩
    · have e : call s u c = s := by
        unfold call; split
        · contradiction
        · rfl
      show Jam cap t k (call s u c) ∧ ∃ l, (call s u c).log = _ ∧ _
      rw [e]; exact ⟨h, triv⟩

theorem Jam.exec {cap : Nat} {t : Tid} {k : Nat} (as : List (Act T)) {s : St T} (h : Jam cap t k s) (ha : Asleep t as) :
    Jam cap t k (exec s as) ∧ ∃ l, (Ring.exec s as).log = s.log ++ l ∧ NoGets l := by
  induction as generalizing s with
  | nil => exact ⟨h, [], (List.append_nil _).symm, noGets_nil⟩
  | cons a as ih =>
    obtain ⟨h1, l1, e1, n1⟩ := h.act a (ha a (.head _))
    obtain ⟨h2, l2, e2, n2⟩ := ih h1 (fun x hx => ha x (.tail _ hx))
    refine ⟨h2, l1 ++ l2, ?_, noGets_append n1 n2⟩
    rw [← List.append_assoc, ← e1]; exact e2

theorem jam_of_free {cap : Nat} {s : St T} {q : List T} {base : Nat} (hI : Inv cap s q base) (hb : s.buf.busy = false) {t : Tid}
    (h : Constructing s t s.buf.popIdx) : Jam cap t s.buf.popIdx s := by
  have hcs : ∀ u, inCS (s.pc u) = false := by
    intro u
    cases hc : inCS (s.pc u)
    · rfl
    · have := hI.lock.2 ⟨u, hc⟩; rw [hb] at this; cases this
  have hp : s.buf.popIdx = base := hI.popI fun u => isGetCount_cs (hcs u)
  refine ⟨⟨q, hp ▸ hI⟩, h, fun u => ⟨fun e => ?_, fun a b e => ?_⟩⟩
  · have := hcs u; rw [e] at this; cases this
  · have := hcs u; rw [e] at this; cases this

/-! ## what it does not block -/

/-- steps only of `u` and of the thread that holds the lock in `s` -/
def Few (s : St T) (u : Tid) (as : List (Act T)) : Prop :=
  NoCalls as ∧ ∀ t, t ≠ u → inCS (s.pc t) = false → Asleep t as

theorem few_append {s : St T} {u : Tid} {as bs : List (Act T)} (h1 : Few s u as) (h2 : Few s u bs) : Few s u (as ++ bs) :=
  ⟨noCalls_append h1.1 h2.1, fun t ht hc a ha => (List.mem_append.1 ha).elim (h1.2 t ht hc a) (h2.2 t ht hc a)⟩

theorem few_solo (s : St T) (u : Tid) (n : Nat) : Few s u (List.replicate n (.step u)) :=
  ⟨noCalls_solo _ _, fun t ht _ a ha => by rw [List.eq_of_mem_replicate ha]; exact Ne.symm ht⟩

theorem few_drop (s : St T) (u : Tid) (i : Nat) : Few s u [.drop i] :=
  ⟨fun a ha => (by rw [List.mem_singleton.1 ha]; trivial), fun _ _ _ a ha => (by rw [List.mem_singleton.1 ha]; trivial)⟩

theorem insideGet_tick {s : St T} {t : Tid} (h : ¬ InsideGet (s.pc t)) : ¬ InsideGet ((tick s t).pc t) := by
  unfold tick
  generalize hp : s.pc t = p at h
  cases p <;> first | (exact absurd trivial h) | skip
  all_goals dsimp only
  all_goals (try split) <;> (try split) <;> simp_all [upd, InsideGet]

theorem insideGet_solo {s : St T} {t : Tid} (h : ¬ InsideGet (s.pc t)) (n : Nat) : ¬ InsideGet ((solo s t n).pc t) := by
  induction n generalizing s with
  | zero => exact h
  | succ n ih => exact ih (insideGet_tick h)

/-- From every state, `u` can return from its call by steps of its own and of the thread that holds the lock, unless its call is `get` and the
oldest element is still under construction. -/
theorem avoid {cap : Nat} {s : St T} {q : List T} {base : Nat} (hI : Inv cap s q base) (u : Tid) :
    ∃ as, Few s u as ∧ ((exec s as).pc u = .idle ∨
      (InsideGet (s.pc u) ∧ InsideGet ((exec s as).pc u) ∧ (exec s as).buf.busy = false ∧ ∃ t, Constructing (exec s as) t (exec s as).buf.popIdx)) := by
  -- free the lock
  have hfree : ∃ as, Few s u as ∧ (exec s as).buf.busy = false ∧ (¬ InsideGet (s.pc u) → ¬ InsideGet ((exec s as).pc u)) := by
    cases hb : s.buf.busy
    · exact ⟨[], ⟨fun _ ha => (by cases ha), fun _ _ _ _ ha => (by cases ha)⟩, hb, id⟩
    · obtain ⟨t, ht⟩ := hI.lock.1 hb
      obtain ⟨n, _, h⟩ := release hI ht
      refine ⟨List.replicate n (.step t), ⟨noCalls_solo _ _, fun t' _ hc a ha => ?_⟩, by rw [← solo_exec]; exact h, fun hg => ?_⟩
      · rw [List.eq_of_mem_replicate ha]
        rintro rfl
        rw [ht] at hc; cases hc
      · rw [← solo_exec]
        by_cases htu : u = t
        · subst htu; exact insideGet_solo hg n
        · rw [solo_other _ _ _ htu]; exact hg
  obtain ⟨as1, hf1, hb1, hg1⟩ := hfree
  obtain ⟨q1, base1, hI1⟩ := inv_exec hI as1
  generalize hs1 : exec s as1 = s1 at hb1 hg1 hI1
  have hcs : ∀ t, inCS (s1.pc t) = false := by
    intro t
    cases hc : inCS (s1.pc t)
    · rfl
    · have := hI1.lock.2 ⟨t, hc⟩; rw [hb1] at this; cases this
  have hpop : s1.buf.popIdx = base1 := hI1.popI fun t => isGetCount_cs (hcs t)
  have hpush : s1.buf.pushIdx = w cap base1 s1.buf.size := hI1.pushI fun t => isPutCount_cs (hcs t)
  have finish : ∀ as, Few s u as → Clear (exec s1 as) u → ∃ as, Few s u as ∧ ((exec s as).pc u = .idle ∨
      (InsideGet (s.pc u) ∧ InsideGet ((exec s as).pc u) ∧ (exec s as).buf.busy = false ∧
        ∃ t, Constructing (exec s as) t (exec s as).buf.popIdx)) := by
    intro as hf hc
    obtain ⟨q2, base2, hI2⟩ := inv_exec hI1 as
    obtain ⟨n, _, hfin⟩ := clear_finish hI2 hc
    refine ⟨as1 ++ (as ++ List.replicate n (.step u)), few_append hf1 (few_append hf (few_solo _ _ _)), .inl ?_⟩
    rw [exec_append, exec_append, hs1, ← solo_exec]; exact hfin
  have now : Clear s1 u → _ := fun hc => finish [] ⟨fun _ ha => (by cases ha), fun _ _ _ _ ha => (by cases ha)⟩ hc
  have viaRef : ∀ k, (∃ r ∈ s1.refs, r.slot = k) → ∃ i, (drop s1 i).buf.nodeBusy k = false := by
    rintro k ⟨r, hr, hk⟩
    obtain ⟨i, hi, hri⟩ := List.mem_iff_getElem.1 hr
    refine ⟨i, ?_⟩
    unfold drop
    rw [List.getElem?_eq_getElem hi, hri]
    simp [hk]
  have who : ∀ t k, slotOf (s1.pc t) = some k → Constructing s1 t k := by
    intro t k hk
    have := hcs t
    cases hp : s1.pc t <;> rw [hp] at hk this <;> simp only [slotOf, inCS, Option.some.injEq] at hk this <;> try contradiction
    · rename_i v k'; subst hk; exact ⟨v, .inl hp⟩
    · rename_i v k'; subst hk; exact ⟨v, .inr hp⟩
  have hu := hcs u
  cases hp : s1.pc u <;> rw [hp] at hu <;> simp only [inCS] at hu <;> try contradiction
  case idle => exact ⟨as1, hf1, .inl (by rw [hs1]; exact hp)⟩
  case putInit v k => exact now ⟨.inr hb1, by rw [hp]; trivial⟩
  case putBuild v k => exact now ⟨.inr hb1, by rw [hp]; trivial⟩
  case obsSpin c => exact now ⟨.inr hb1, by rw [hp]; trivial⟩
  case putSpin v =>
    by_cases hfull : s1.buf.popIdx = s1.buf.pushIdx ∧ s1.buf.size ≠ 0
    · exact now ⟨.inr hb1, by rw [hp]; exact .inl hfull⟩
    · cases hn : s1.buf.nodeBusy s1.buf.pushIdx
      · exact now ⟨.inr hb1, by rw [hp]; exact .inr hn⟩
      · rcases (hI1.owned _).1 hn with ⟨t, ht⟩ | hr
        · exfalso
          obtain ⟨v', hv⟩ := who t _ ht
          have hk : ∃ i, i < s1.buf.size ∧ s1.buf.pushIdx = w s1.buf.capacity base1 i := by
            have := hI1.pcs t
            rcases hv with hv | hv <;> rw [hv] at this <;> obtain ⟨i, h1, h2, _⟩ := this <;> exact ⟨i, h1, h2⟩
          obtain ⟨i, h1, h2⟩ := hk
          have hle := hI1.sizeLe
          have hbl := hI1.baseLt
          rw [hI1.capEq, hpush] at h2
          rw [hpush, hpop] at hfull
          by_cases hlt : s1.buf.size < cap
          · have := w_inj hbl hlt (by omega) h2
            omega
          · have e : w cap base1 s1.buf.size = base1 := by
              unfold w; rw [if_neg (by omega)]; omega
            exact hfull ⟨e.symm, by omega⟩
        · obtain ⟨i, hi⟩ := viaRef _ hr
          refine finish [.drop i] (few_drop _ _ _) ⟨.inr ?_, ?_⟩
          · show (drop s1 i).buf.busy = false
            rw [drop_busy]; exact hb1
          · show match (drop s1 i).pc u with
              | .putSpin _ | .putCheck _ => ((drop s1 i).buf.popIdx = (drop s1 i).buf.pushIdx ∧ (drop s1 i).buf.size ≠ 0) ∨
                  (drop s1 i).buf.nodeBusy (drop s1 i).buf.pushIdx = false
              | .putCapture _ => (drop s1 i).buf.nodeBusy (drop s1 i).buf.pushIdx = false
              | .getSpin | .getCheck => ((drop s1 i).buf.pushIdx = (drop s1 i).buf.popIdx ∧ (drop s1 i).buf.size = 0) ∨
                  (drop s1 i).buf.nodeBusy (drop s1 i).buf.popIdx = false
              | .getCapture => (drop s1 i).buf.nodeBusy (drop s1 i).buf.popIdx = false
              | .putRetry _ | .getRetry => False
              | _ => True
            rw [drop_pc, hp, (drop_idx _ _).1]; exact .inr hi
  case getSpin =>
    have hin : InsideGet (s.pc u) := Classical.byContradiction fun hg => hg1 hg (by rw [hp]; trivial)
    cases hn : s1.buf.nodeBusy s1.buf.popIdx
    · exact now ⟨.inr hb1, by rw [hp]; exact .inr hn⟩
    · rcases (hI1.owned _).1 hn with ⟨t, ht⟩ | hr
      · exact ⟨as1, hf1, .inr ⟨hin, by rw [hs1, hp]; trivial, by rw [hs1]; exact hb1, t, by rw [hs1]; exact who t _ ht⟩⟩
      · obtain ⟨i, hi⟩ := viaRef _ hr
        refine finish [.drop i] (few_drop _ _ _) ⟨.inr ?_, ?_⟩
        · show (drop s1 i).buf.busy = false
          rw [drop_busy]; exact hb1
        · show match (drop s1 i).pc u with
              | .putSpin _ | .putCheck _ => ((drop s1 i).buf.popIdx = (drop s1 i).buf.pushIdx ∧ (drop s1 i).buf.size ≠ 0) ∨
                  (drop s1 i).buf.nodeBusy (drop s1 i).buf.pushIdx = false
              | .putCapture _ => (drop s1 i).buf.nodeBusy (drop s1 i).buf.pushIdx = false
              | .getSpin | .getCheck => ((drop s1 i).buf.pushIdx = (drop s1 i).buf.popIdx ∧ (drop s1 i).buf.size = 0) ∨
                  (drop s1 i).buf.nodeBusy (drop s1 i).buf.popIdx = false
              | .getCapture => (drop s1 i).buf.nodeBusy (drop s1 i).buf.popIdx = false
              | .putRetry _ | .getRetry => False
              | _ => True
          rw [drop_pc, hp, (drop_idx _ _).2]; exact .inr hi

end Ring
end Soralog
