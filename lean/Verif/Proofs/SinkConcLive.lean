import Verif.Proofs.SinkConc
/-!
# Concurrent sink: owners of unfinished puts, and completion of calls
-/
namespace Soralog
namespace SinkConc

/-- every queued element that is not yet free has a thread that will free it -/
structure Conv (s : St) : Prop where
  made : ∀ n, n < s.put.length → s.phase n = .made → ∃ t, s.pc t = .count n
  counted : ∀ n, n < s.put.length → s.phase n = .counted → ∃ t, s.pc t = .release n

theorem conv_frame {s s' : St} (h : Conv s) (h1 : s'.put = s.put) (h3 : s'.phase = s.phase) (t : Tid)
    (hp : (s.pc t).ticket = none) (ho : ∀ u, u ≠ t → s'.pc u = s.pc u) : Conv s' := by
  refine ⟨?_, ?_⟩
  · intro n hn hm
    rw [h1] at hn; rw [h3] at hm
    obtain ⟨u, hu⟩ := h.made n hn hm
    refine ⟨u, ?_⟩
    rw [ho u (by intro he; subst he; rw [hu] at hp; cases hp)]; exact hu
  · intro n hn hm
    rw [h1] at hn; rw [h3] at hm
    obtain ⟨u, hu⟩ := h.counted n hn hm
    refine ⟨u, ?_⟩
    rw [ho u (by intro he; subst he; rw [hu] at hp; cases hp)]; exact hu

theorem conv_step {c : Cfg} {s : St} (h : Conv s) (ht : Tick c s) (t : Tid) (ch : Ch) : Conv (step c s t ch) := by
  rcases step_queue c s t ch with ⟨h1, h2, h3, h4, h5⟩ | ⟨e, hp, hq, hs⟩ | ⟨n, hp, hs⟩ | ⟨n, hp, hs⟩ |
    ⟨k, e, hp, he, hr, hs⟩
  · exact conv_frame h h1 h3 t h4 (fun u hu => step_pc_other c s t ch u hu)
  · rw [hs]
    refine ⟨?_, ?_⟩
    · intro n hn hm
      have hn : n < (s.put ++ [e]).length := hn
      have hm : s.phase n = .made := hm
      by_cases hl : n = s.put.length
      · exact ⟨t, by show upd _ _ _ _ = _; rw [upd, if_pos rfl, hl]⟩
      · obtain ⟨u, hu⟩ := h.made n (by simp at hn; omega) hm
        refine ⟨u, ?_⟩
        show upd _ _ _ _ = _
        rw [upd, if_neg (by intro he; subst he; rw [hp] at hu; cases hu)]; exact hu
    · intro n hn hm
      have hn : n < (s.put ++ [e]).length := hn
      have hm : s.phase n = .counted := hm
      by_cases hl : n = s.put.length
      · have := ht.fresh n (by omega); rw [hm] at this; cases this
      · obtain ⟨u, hu⟩ := h.counted n (by simp at hn; omega) hm
        refine ⟨u, ?_⟩
        show upd _ _ _ _ = _
        rw [upd, if_neg (by intro he; subst he; rw [hp] at hu; cases hu)]; exact hu
  · rw [hs]
    refine ⟨?_, ?_⟩
    · intro m hn hm
      have hm : upd s.phase n .counted m = .made := hm
      unfold upd at hm
      split at hm
      · cases hm
      · rename_i hne
        obtain ⟨u, hu⟩ := h.made m hn hm
        refine ⟨u, ?_⟩
        show upd _ _ _ _ = _
        rw [upd, if_neg (by intro he; subst he; rw [hp] at hu; cases hu; exact hne rfl)]; exact hu
    · intro m hn hm
      have hm : upd s.phase n .counted m = .counted := hm
      unfold upd at hm
      split at hm
      · rename_i he; exact ⟨t, by show upd _ _ _ _ = _; rw [upd, if_pos rfl, he]⟩
      · obtain ⟨u, hu⟩ := h.counted m hn hm
        refine ⟨u, ?_⟩
        show upd _ _ _ _ = _
        rw [upd, if_neg (by intro he; subst he; rw [hp] at hu; cases hu)]; exact hu
  · rw [hs]
    refine ⟨?_, ?_⟩
    · intro m hn hm
      have hm : upd s.phase n .ready m = .made := hm
      unfold upd at hm
      split at hm
      · cases hm
      · obtain ⟨u, hu⟩ := h.made m hn hm
        refine ⟨u, ?_⟩
        show upd _ _ _ _ = _
        rw [upd, if_neg (by intro he; subst he; rw [hp] at hu; cases hu)]; exact hu
    · intro m hn hm
      have hm : upd s.phase n .ready m = .counted := hm
      unfold upd at hm
      split at hm
      · cases hm
      · rename_i hne
        obtain ⟨u, hu⟩ := h.counted m hn hm
        refine ⟨u, ?_⟩
        show upd _ _ _ _ = _
        rw [upd, if_neg (by intro he; subst he; rw [hp] at hu; cases hu; exact hne rfl)]; exact hu
  · rw [hs]
    exact conv_frame (s' := setPc { s with taken := s.taken + 1, held := true } t (taking c k e)) h rfl rfl t
      (by rw [hp]; rfl) (fun u hu => by show upd _ _ _ _ = _; rw [upd, if_neg hu])

theorem conv_reach {c : Cfg} {o : Bool} {s : St} (h : Reach c o s) : Conv s := by
  induction h with
  | init => exact ⟨fun n hn => absurd hn (Nat.not_lt_zero _), fun n hn => absurd hn (Nat.not_lt_zero _)⟩
  | @next s s' hr he ih =>
    cases he with
    | step t ch => exact conv_step ih (tick_reach hr) t ch
    | call t ht hi hd call =>
      exact conv_frame ih rfl rfl t (by rw [hi]; rfl) (fun u hu => by show upd _ _ _ _ = _; rw [upd, if_neg hu])
    | destroy t ht hd hi =>
      exact conv_frame ih rfl rfl t (by rw [hi t ht]; rfl) (fun u hu => by show upd _ _ _ _ = _; rw [upd, if_neg hu])

/-! ### completion -/

theorem Steps.trans {c : Cfg} {a b d : St} (h1 : Steps c a b) (h2 : Steps c b d) : Steps c a d := by
  induction h1 with
  | refl => exact h2
  | more t ch _ ih => exact .more t ch (ih h2)

theorem Steps.reach {c : Cfg} {o : Bool} {a b : St} (h : Steps c a b) (hr : Reach c o a) : Reach c o b := by
  induction h with
  | refl => exact hr
  | more t ch _ ih => exact ih (.next hr (.step _ t ch))

/-- no spurious failure, everything passed on, waits time out -/
def good : Ch := ⟨true, 0, true, true, true⟩

/-- number of elements that are not free yet, weighted by the steps they still need -/
def unready (s : St) : Nat := ((List.range s.put.length).map fun n =>
  match s.phase n with | .made => 2 | .counted => 1 | .ready => 0).sum

theorem sum_map_upd {f g : Nat → Nat} {l : List Nat} (hnd : l.Nodup) (n : Nat) (hn : n ∈ l) (hlt : f n < g n)
    (heq : ∀ m, m ≠ n → f m = g m) : (l.map f).sum < (l.map g).sum := by
  induction l with
  | nil => cases hn
  | cons a l ih =>
    simp only [List.map_cons, List.sum_cons]
    rw [List.nodup_cons] at hnd
    by_cases ha : a = n
    · subst ha
      have : l.map f = l.map g := by
        apply List.map_congr_left
        intro m hm; exact heq m (by intro he; subst he; exact hnd.1 hm)
      rw [this]; omega
    · have := ih hnd.2 (by cases hn with | head => exact absurd rfl ha | tail _ h => exact h)
      have := heq a ha
      omega

/-- All unfinished puts can be finished; nothing else moves. -/
theorem finish_puts {c : Cfg} {o : Bool} {s : St} (h : Reach c o s) :
    ∃ s', Steps c s s' ∧ s'.put = s.put ∧ s'.taken = s.taken ∧ s'.flag = s.flag ∧ s'.held = s.held ∧ s'.owner = s.owner ∧
      (∀ n, n < s'.put.length → s'.phase n = .ready) ∧
      (∀ t, (s.pc t).ticket = none → s'.pc t = s.pc t) ∧
      (∀ t n, (s.pc t).ticket = some n → s'.pc t = .decide) := by
  generalize hm : unready s = m
  induction m using Nat.strongRecOn generalizing s with
  | ind m ih =>
    by_cases hall : ∀ n, n < s.put.length → s.phase n = .ready
    · refine ⟨s, .refl s, rfl, rfl, rfl, rfl, rfl, hall, fun _ _ => rfl, ?_⟩
      intro t n ht
      exfalso
      have htk := tick_reach h
      rcases ticket_cases ht with h1 | h1
      · have := htk.count t n h1; rw [hall n this.2.1] at this; exact absurd this.2.2 (by simp)
      · have := htk.release t n h1; rw [hall n this.2.1] at this; exact absurd this.2.2 (by simp)
    · have : ∃ n, n < s.put.length ∧ s.phase n ≠ .ready := by
        apply Classical.byContradiction
        intro hc; apply hall; intro n hn
        apply Classical.byContradiction
        intro hp; exact hc ⟨n, hn, hp⟩
      obtain ⟨n, hn, hne⟩ := this
      have hcv := conv_reach h
      have hstep : ∃ t, (s.pc t).ticket = some n ∧
          (step c s t good).put = s.put ∧ (step c s t good).taken = s.taken ∧ (step c s t good).flag = s.flag ∧
          (step c s t good).held = s.held ∧ unready (step c s t good) < unready s ∧
          (((step c s t good).pc t = .decide ∨ (step c s t good).pc t = .release n)) := by
        cases hph : s.phase n with
        | ready => exact absurd hph hne
        | made =>
          obtain ⟨t, ht⟩ := hcv.made n hn hph
          refine ⟨t, by rw [ht]; rfl, ?_⟩
          unfold step; simp only [ht]
          refine ⟨rfl, rfl, rfl, rfl, ?_, Or.inr (by simp [setPc, upd])⟩
          unfold unready
          apply sum_map_upd List.nodup_range n (List.mem_range.2 hn)
          · show (match upd s.phase n .counted n with | .made => 2 | .counted => 1 | .ready => 0) < _
            rw [upd, if_pos rfl, hph]; decide
          · intro m hmn
            show (match upd s.phase n .counted m with | .made => 2 | .counted => 1 | .ready => 0) = _
            rw [upd, if_neg hmn]
        | counted =>
          obtain ⟨t, ht⟩ := hcv.counted n hn hph
          refine ⟨t, by rw [ht]; rfl, ?_⟩
          unfold step; simp only [ht]
          refine ⟨rfl, rfl, rfl, rfl, ?_, Or.inl (by simp [setPc, upd])⟩
          unfold unready
          apply sum_map_upd List.nodup_range n (List.mem_range.2 hn)
          · show (match upd s.phase n .ready n with | .made => 2 | .counted => 1 | .ready => 0) < _
            rw [upd, if_pos rfl, hph]; decide
          · intro m hmn
            show (match upd s.phase n .ready m with | .made => 2 | .counted => 1 | .ready => 0) = _
            rw [upd, if_neg hmn]
      obtain ⟨t, ht, e1, e2, e3, e4, hlt, hpc⟩ := hstep
      obtain ⟨s', hs, f1, f2, f3, f4, f4', f5, f6, f7⟩ := ih _ (by rw [← hm]; exact hlt) (Reach.next h (.step s t good)) rfl
      refine ⟨s', .more t good hs, by rw [f1, e1], by rw [f2, e2], by rw [f3, e3], by rw [f4, e4],
        by rw [f4', step_owner], f5, ?_, ?_⟩
      · intro u hu
        have hut : u ≠ t := by intro he; subst he; rw [ht] at hu; cases hu
        have := step_pc_other c s t good u hut
        rw [f6 u (by rw [this]; exact hu), this]
      · intro u k hu
        by_cases hut : u = t
        · subst hut
          rcases hpc with hp | hp
          · rw [f6 u (by rw [hp]; rfl), hp]
          · exact f7 u n (by rw [hp]; rfl)
        · have := step_pc_other c s t good u hut
          exact f7 u k (by rw [this]; exact hu)

/-! ### a thread inside `flush` can leave it -/

def PC.reading : PC → Bool
  | .uncount _ _ | .unref _ _ | .sCall _ _ | .sUncount _ _ | .sUnref _ _ => true
  | _ => false

structure HeldInv (s : St) : Prop where
  body : ∀ t, (s.pc t).inBody = true → s.held = (s.pc t).reading
  free : s.flag = false → s.held = false

theorem reading_of_not_inBody {p : PC} (h : p.inBody = false) : p.reading = false := by
  cases p <;> first | rfl | (simp [PC.inBody] at h)

theorem reading_taking (c : Cfg) (k : Ret) (e : Event) : (taking c k e).reading = true := by unfold taking; split <;> rfl
theorem reading_nothing (c : Cfg) (k : Ret) : (nothing c k).reading = false := by unfold nothing; split <;> rfl
theorem reading_afterFlush (k : Ret) : (afterFlush k).reading = false := by cases k <;> rfl

theorem step_held (c : Cfg) (s : St) (t : Tid) (ch : Ch) :
    ((step c s t ch).held = s.held ∧ ((step c s t ch).pc t).reading = (s.pc t).reading) ∨
    ((s.pc t).inBody = true ∧ (step c s t ch).held = ((step c s t ch).pc t).reading) := by
  cases hp : s.pc t with
  | get k =>
    unfold step; simp only [hp]
    split
    · left; refine ⟨rfl, ?_⟩; show PC.reading (upd _ _ _ _) = _; rw [upd, if_pos rfl]; exact reading_nothing c k
    · split
      · right; refine ⟨rfl, ?_⟩; show _ = PC.reading (upd _ _ _ _); rw [upd, if_pos rfl]; exact (reading_taking c k _).symm
      · left; simp [PC.reading, hp]
  | sUnref k e => right; unfold step; simp only [hp]; simp [setPc, upd, PC.reading, PC.inBody]
  | unref k e => right; unfold step; simp only [hp]; simp [setPc, upd, PC.reading, PC.inBody]
  | write k e =>
    left
    cases e with
    | none => unfold step; simp only [hp]; simp [setPc, upd, PC.reading]
    | some e => unfold step; simp only [hp]; split <;> simp [setPc, upd, PC.reading]
  | enter k =>
    left; unfold step; simp only [hp]; split
    · refine ⟨rfl, ?_⟩; show PC.reading (upd _ _ _ _) = _; rw [upd, if_pos rfl]; exact reading_afterFlush k
    · simp [setPc, upd, PC.reading]
  | leave k =>
    left; unfold step; simp only [hp]
    refine ⟨rfl, ?_⟩; show PC.reading (upd _ _ _ _) = _; rw [upd, if_pos rfl]; exact reading_afterFlush k
  | _ => left; unfold step; simp only [hp] <;> (repeat' split) <;> simp [setPc, upd, PC.reading, hp]

theorem held_step {c : Cfg} {s : St} (hx : Excl s) (h : HeldInv s) (t : Tid) (ch : Ch)
    (hx' : Excl (step c s t ch)) : HeldInv (step c s t ch) := by
  have hother := fun u (hu : u ≠ t) => step_pc_other c s t ch u hu
  have hsf := step_held c s t ch
  refine ⟨?_, ?_⟩
  · intro u hu
    by_cases hut : u = t
    · subst hut
      rcases hsf with ⟨h1, h2⟩ | ⟨h1, h2⟩
      · rw [h1, h2]
        cases hb : (s.pc u).inBody with
        | true => exact h.body u hb
        | false =>
          rw [reading_of_not_inBody hb]
          apply h.free
          rcases step_body c s u ch with ⟨b, _⟩ | ⟨_, b, _⟩ | ⟨b, _⟩
          · rw [hu, hb] at b; cases b
          · exact b
          · rw [hb] at b; cases b
      · exact h2
    · rw [hother u hut] at hu ⊢
      rcases hsf with ⟨h1, h2⟩ | ⟨h1, h2⟩
      · rw [h1]; exact h.body u hu
      · exact absurd (hx.uniq u t hu h1) hut
  · intro hf
    have hnb : ((step c s t ch).pc t).inBody = false := by
      cases hb : ((step c s t ch).pc t).inBody with
      | false => rfl
      | true => have := hx'.flag t hb; rw [hf] at this; cases this
    rcases hsf with ⟨h1, h2⟩ | ⟨h1, h2⟩
    · rw [h1]
      cases hb : (s.pc t).inBody with
      | true => rw [h.body t hb, ← h2, reading_of_not_inBody hnb]
      | false =>
        apply h.free
        rcases step_body c s t ch with ⟨_, b⟩ | ⟨_, b, _⟩ | ⟨b, _⟩
        · rw [← b]; exact hf
        · exact b
        · rw [hb] at b; cases b
    · rw [h2, reading_of_not_inBody hnb]

theorem held_reach {c : Cfg} {o : Bool} {s : St} (h : Reach c o s) : HeldInv s := by
  induction h with
  | init =>
    refine ⟨?_, fun _ => rfl⟩
    intro t h
    have : ((init c o).pc t).inBody = false := by
      simp only [init]; split
      · split <;> rfl
      · rfl
    rw [this] at h; cases h
  | @next s s' hr he ih =>
    have hx' := excl_reach (Reach.next hr he)
    cases he with
    | step t ch => exact held_step (excl_reach hr) ih t ch hx'
    | call t ht hi hd call =>
      refine ⟨?_, ih.free⟩
      intro u hu
      have := upd_not_body (s := s) (t := t) (by cases call <;> rfl) hu
      show s.held = (upd s.pc t _ u).reading
      rw [this]; exact ih.body u (by rw [← this]; exact hu)
    | destroy t ht hd hi =>
      refine ⟨?_, ih.free⟩
      intro u hu
      have := upd_not_body (s := s) (t := t) (p := .dStart) rfl hu
      show s.held = (upd s.pc t _ u).reading
      rw [this]; exact ih.body u (by rw [← this]; exact hu)

/-- what running one thread alone leaves alone -/
structure Same (s s' : St) (t : Tid) : Prop where
  put : s'.put = s.put
  phase : s'.phase = s.phase
  owner : s'.owner = s.owner
  fin : s'.needFinalize = s.needFinalize
  taken : s.taken ≤ s'.taken
  pc : ∀ u, u ≠ t → s'.pc u = s.pc u

theorem Same.trans {s s' s'' : St} {t : Tid} (h : Same s s' t) (h' : Same s' s'' t) : Same s s'' t :=
  ⟨h'.put.trans h.put, h'.phase.trans h.phase, h'.owner.trans h.owner, h'.fin.trans h.fin,
    Nat.le_trans h.taken h'.taken, fun u hu => (h'.pc u hu).trans (h.pc u hu)⟩

/-- the thread can leave `flush`, having taken `n` more elements -/
def Leaves (c : Cfg) (s : St) (t : Tid) (k : Ret) (n : Nat) : Prop :=
  ∃ s', Steps c s s' ∧ Same s s' t ∧ s'.flag = false ∧ s'.pc t = afterFlush k ∧ s'.taken = s.taken + n

theorem Leaves.step {c : Cfg} {s : St} {t : Tid} {k : Ret} {n : Nat} (h1 : (step c s t good).put = s.put)
    (h2 : (step c s t good).phase = s.phase) (h3 : (step c s t good).taken = s.taken)
    (h4 : (step c s t good).needFinalize = s.needFinalize)
    (h : Leaves c (step c s t good) t k n) : Leaves c s t k n := by
  obtain ⟨s', a, b, d, e, f⟩ := h
  refine ⟨s', .more t good a, ?_, d, e, by rw [f, h3]⟩
  exact Same.trans ⟨h1, h2, step_owner c s t good, h4, by rw [h3]; exact Nat.le_refl _,
    fun u hu => step_pc_other c s t good u hu⟩ b

theorem leaves_leave {c : Cfg} {s : St} {t : Tid} {k : Ret} (h : s.pc t = .leave k) : Leaves c s t k 0 := by
  refine ⟨step c s t good, .more t good (.refl _), ?_⟩
  unfold step; simp only [h]
  exact ⟨⟨rfl, rfl, rfl, rfl, Nat.le_refl _, fun u hu => by show upd _ _ _ _ = _; rw [upd, if_neg hu]⟩, rfl,
    by simp [setPc, upd], rfl⟩

theorem leaves_reopen {c : Cfg} {s : St} {t : Tid} {k : Ret} (h : s.pc t = .reopen k) : Leaves c s t k 0 := by
  apply Leaves.step
  all_goals first | (apply leaves_leave) | skip
  all_goals unfold SinkConc.step; simp only [h]; split <;> simp [setPc, upd]

theorem leaves_casRotate {c : Cfg} {s : St} {t : Tid} {k : Ret} (h : s.pc t = .casRotate k) : Leaves c s t k 0 := by
  by_cases hr : (c.isFile && (s.needRotate && good.casOk)) = true
  · have hs : SinkConc.step c s t good = setPc { s with needRotate := false } t (.reopen k) := by
      unfold SinkConc.step; simp only [h]; rw [if_pos hr]
    apply Leaves.step
    · rw [hs]; rfl
    · rw [hs]; rfl
    · rw [hs]; rfl
    · rw [hs]; rfl
    · apply leaves_reopen; rw [hs]; simp [setPc, upd]
  · have hs : SinkConc.step c s t good = setPc s t (.leave k) := by
      unfold SinkConc.step; simp only [h]; rw [if_neg hr]
    apply Leaves.step
    · rw [hs]; rfl
    · rw [hs]; rfl
    · rw [hs]; rfl
    · rw [hs]; rfl
    · apply leaves_leave; rw [hs]; simp [setPc, upd]

theorem leaves_sync {c : Cfg} {s : St} {t : Tid} {k : Ret} (h : s.pc t = .sync k) : Leaves c s t k 0 := by
  apply Leaves.step
  all_goals first | (apply leaves_casRotate) | skip
  all_goals unfold SinkConc.step; simp only [h]; simp [setPc, upd]

theorem leaves_casFlush {c : Cfg} {s : St} {t : Tid} {k : Ret} (h : s.pc t = .casFlush k) : Leaves c s t k 0 := by
  by_cases hr : (s.needFlush && good.casOk) = true
  · have hs : SinkConc.step c s t good = setPc { s with needFlush := false } t (.sync k) := by
      unfold SinkConc.step; simp only [h]; rw [if_pos hr]
    apply Leaves.step
    · rw [hs]; rfl
    · rw [hs]; rfl
    · rw [hs]; rfl
    · rw [hs]; rfl
    · apply leaves_sync; rw [hs]; simp [setPc, upd]
  · have hs : SinkConc.step c s t good = setPc s t (.casRotate k) := by
      unfold SinkConc.step; simp only [h]; rw [if_neg hr]
    apply Leaves.step
    · rw [hs]; rfl
    · rw [hs]; rfl
    · rw [hs]; rfl
    · rw [hs]; rfl
    · apply leaves_casRotate; rw [hs]; simp [setPc, upd]

theorem leaves_write {c : Cfg} {s : St} {t : Tid} {k : Ret} {e : Option Event} (h : s.pc t = .write k e) :
    Leaves c s t k 0 := by
  cases e with
  | none =>
    apply Leaves.step
    all_goals first | (apply leaves_casRotate) | skip
    all_goals unfold SinkConc.step; simp only [h]; simp [setPc, upd]
  | some e =>
    apply Leaves.step
    all_goals first | (apply leaves_casFlush) | skip
    all_goals unfold SinkConc.step; simp only [h]; split <;> simp [setPc, upd]

theorem leaves_unref {c : Cfg} {s : St} {t : Tid} {k : Ret} {e : Event} (h : s.pc t = .unref k e) :
    Leaves c s t k 0 := by
  apply Leaves.step
  all_goals first | (apply leaves_write (e := some e)) | skip
  all_goals unfold SinkConc.step; simp only [h]; simp [setPc, upd]

theorem leaves_uncount {c : Cfg} {s : St} {t : Tid} {k : Ret} {e : Event} (h : s.pc t = .uncount k e) :
    Leaves c s t k 0 := by
  apply Leaves.step
  all_goals first | (apply leaves_unref (e := e)) | skip
  all_goals unfold SinkConc.step; simp only [h]; simp [setPc, upd]

/-- how many of `n` queued elements one `flush` takes: all (syslog) or at most one (console, file) -/
def takes (c : Cfg) (n : Nat) : Nat := if c.isSyslog then n else min n 1

theorem takes_le (c : Cfg) (n : Nat) : takes c n ≤ n := by unfold takes; split <;> omega
theorem takes_pos (c : Cfg) {n : Nat} (h : 0 < n) : 0 < takes c n := by unfold takes; split <;> omega
theorem takes_zero (c : Cfg) : takes c 0 = 0 := by unfold takes; split <;> rfl

theorem leaves_sClear {c : Cfg} {s : St} {t : Tid} {k : Ret} (h : s.pc t = .sClear k) : Leaves c s t k 0 := by
  apply Leaves.step
  all_goals first | (apply leaves_leave) | skip
  all_goals unfold SinkConc.step; simp only [h]; simp [setPc, upd]

theorem leaves_nothing {c : Cfg} {s : St} {t : Tid} {k : Ret} (h : s.pc t = nothing c k) : Leaves c s t k 0 := by
  unfold nothing at h
  split at h
  · exact leaves_sClear h
  · exact leaves_write h

theorem get_step_none {c : Cfg} {s : St} {t : Tid} {k : Ret} {ch : Ch} (h : s.pc t = .get k) (he : s.put[s.taken]? = none) :
    step c s t ch = setPc s t (nothing c k) := by
  unfold step; simp only [h]; rw [he]

theorem get_step_some {c : Cfg} {s : St} {t : Tid} {k : Ret} {ch : Ch} {e : Event} (h : s.pc t = .get k)
    (he : s.put[s.taken]? = some e) (hr : s.phase s.taken = .ready) :
    step c s t ch = setPc { s with taken := s.taken + 1, held := true } t (taking c k e) := by
  unfold step; simp only [h]; rw [he]; simp only; rw [if_pos hr]

/-- three steps of the syslog loop bring the thread back to `get` -/
theorem sys_loop {c : Cfg} {s : St} {t : Tid} {k : Ret} {e : Event} (h : s.pc t = .sCall k e ∨ s.pc t = .sUncount k e ∨ s.pc t = .sUnref k e) :
    ∃ s', Steps c s s' ∧ Same s s' t ∧ s'.taken = s.taken ∧ s'.pc t = .get k := by
  have h3 : ∀ s : St, s.pc t = .sUnref k e → ∃ s', Steps c s s' ∧ Same s s' t ∧ s'.taken = s.taken ∧ s'.pc t = .get k := by
    intro s h
    refine ⟨step c s t good, .more t good (.refl _), ?_⟩
    unfold step; simp only [h]
    exact ⟨⟨rfl, rfl, rfl, rfl, Nat.le_refl _, fun u hu => by show upd _ _ _ _ = _; rw [upd, if_neg hu]⟩, rfl,
      by simp [setPc, upd]⟩
  have one : ∀ (s : St) (s1 : St), step c s t good = s1 → Same s s1 t → s1.taken = s.taken →
      (∃ s', Steps c s1 s' ∧ Same s1 s' t ∧ s'.taken = s1.taken ∧ s'.pc t = .get k) →
      ∃ s', Steps c s s' ∧ Same s s' t ∧ s'.taken = s.taken ∧ s'.pc t = .get k := by
    intro s s1 hs hS ht ⟨s', a, b, d, f⟩
    exact ⟨s', .more t good (by rw [hs]; exact a), hS.trans b, by rw [d, ht], f⟩
  have h2 : ∀ s : St, s.pc t = .sUncount k e → ∃ s', Steps c s s' ∧ Same s s' t ∧ s'.taken = s.taken ∧ s'.pc t = .get k := by
    intro s h
    refine one s (setPc { s with size := Sink.subSize s.size e.message.length } t (.sUnref k e)) (by unfold step; simp only [h]) ?_ rfl (h3 _ (by simp [setPc, upd]))
    exact ⟨rfl, rfl, rfl, rfl, Nat.le_refl _, fun u hu => by show upd _ _ _ _ = _; rw [upd, if_neg hu]⟩
  rcases h with h | h | h
  · refine one s (setPc { s with run := s.run ++ [e], calls := s.calls ++ sysCalls c s.run e, written := s.written ++ [e] } t (.sUncount k e)) (by unfold step; simp only [h]) ?_ rfl (h2 _ (by simp [setPc, upd]))
    exact ⟨rfl, rfl, rfl, rfl, Nat.le_refl _, fun u hu => by show upd _ _ _ _ = _; rw [upd, if_neg hu]⟩
  · exact h2 s h
  · exact h3 s h

theorem Leaves.after {c : Cfg} {s s1 : St} {t : Tid} {k : Ret} {n : Nat} (a : Steps c s s1) (b : Same s s1 t)
    (d : s1.taken = s.taken) (h : Leaves c s1 t k n) : Leaves c s t k n := by
  obtain ⟨s', a', b', d', e', f'⟩ := h
  exact ⟨s', a.trans a', b.trans b', d', e', by rw [f', d]⟩

theorem leaves_get {c : Cfg} {s : St} {t : Tid} {k : Ret} (h : s.pc t = .get k)
    (hr : ∀ n, n < s.put.length → s.phase n = .ready) :
    Leaves c s t k (takes c (s.put.length - s.taken)) := by
  generalize hm : s.put.length - s.taken = m
  induction m generalizing s with
  | zero =>
    rw [takes_zero]
    have he : s.put[s.taken]? = none := List.getElem?_eq_none (by omega)
    have hs := get_step_none (c := c) (ch := good) h he
    apply Leaves.step
    · rw [hs]; rfl
    · rw [hs]; rfl
    · rw [hs]; rfl
    · rw [hs]; rfl
    · apply leaves_nothing; rw [hs]; simp [setPc, upd]
  | succ m ih =>
    have hlt : s.taken < s.put.length := by omega
    have he : s.put[s.taken]? = some s.put[s.taken] := List.getElem?_eq_getElem hlt
    have hs := get_step_some (c := c) (ch := good) h he (hr _ hlt)
    have hS : Same s (SinkConc.step c s t good) t := by
      refine ⟨by rw [hs]; rfl, by rw [hs]; rfl, step_owner c s t good, by rw [hs]; rfl, ?_,
        fun u hu => step_pc_other c s t good u hu⟩
      rw [hs]; show s.taken ≤ s.taken + 1; omega
    have ht : (SinkConc.step c s t good).taken = s.taken + 1 := by rw [hs]; rfl
    have hp : (SinkConc.step c s t good).pc t = taking c k s.put[s.taken] := by rw [hs]; simp [setPc, upd]
    have fin : ∀ n, Leaves c (SinkConc.step c s t good) t k n → Leaves c s t k (n + 1) := by
      intro n ⟨s', a, b, d, e, f⟩
      exact ⟨s', .more t good a, hS.trans b, d, e, by rw [f, ht]; omega⟩
    cases hsys : c.isSyslog with
    | false =>
      have hp : (SinkConc.step c s t good).pc t = .uncount k s.put[s.taken] := by rw [hp]; simp [taking, hsys]
      have : takes c (m + 1) = 0 + 1 := by simp [takes, hsys]
      rw [this]
      exact fin 0 (leaves_uncount hp)
    | true =>
      have hp : (SinkConc.step c s t good).pc t = .sCall k s.put[s.taken] := by rw [hp]; simp [taking, hsys]
      have : takes c (m + 1) = takes c m + 1 := by simp [takes, hsys]
      rw [this]
      apply fin
      obtain ⟨s1, a, b, d, e⟩ := sys_loop (c := c) (Or.inl hp)
      have hput : s1.put = s.put := b.put.trans hS.put
      refine Leaves.after a b d (ih e ?_ ?_)
      · rw [hput, b.phase, hS.phase]; exact hr
      · rw [hput, d, ht]; omega

theorem leaves_enter {c : Cfg} {s : St} {t : Tid} {k : Ret} (h : s.pc t = .enter k) (hf : s.flag = false)
    (hr : ∀ n, n < s.put.length → s.phase n = .ready) :
    Leaves c s t k (takes c (s.put.length - s.taken)) := by
  have hs : SinkConc.step c s t good = setPc { s with flag := true, run := [] } t (.get k) := by
    unfold SinkConc.step; simp only [h]; rw [hf]; rfl
  apply Leaves.step
  · rw [hs]; rfl
  · rw [hs]; rfl
  · rw [hs]; rfl
  · rw [hs]; rfl
  · have := leaves_get (c := c) (s := SinkConc.step c s t good) (t := t) (k := k) (by rw [hs]; simp [setPc, upd])
      (by rw [hs]; exact hr)
    rw [hs] at this ⊢
    exact this

theorem leaves_sys {c : Cfg} {s : St} {t : Tid} {k : Ret} {e : Event}
    (h : s.pc t = .sCall k e ∨ s.pc t = .sUncount k e ∨ s.pc t = .sUnref k e)
    (hr : ∀ n, n < s.put.length → s.phase n = .ready) : Leaves c s t k (takes c (s.put.length - s.taken)) := by
  obtain ⟨s1, a, b, d, f⟩ := sys_loop (c := c) h
  have := leaves_get (c := c) f (by rw [b.put, b.phase]; exact hr)
  rw [b.put, d] at this
  exact Leaves.after a b d this

/-- whatever thread is inside `flush` can leave it -/
theorem leaves_body {c : Cfg} {s : St} {t : Tid} (h : (s.pc t).inBody = true)
    (hr : ∀ n, n < s.put.length → s.phase n = .ready) : ∃ k n, Leaves c s t k n := by
  cases hp : s.pc t with
  | get k => exact ⟨k, _, leaves_get hp hr⟩
  | uncount k e => exact ⟨k, _, leaves_uncount hp⟩
  | unref k e => exact ⟨k, _, leaves_unref hp⟩
  | write k e => exact ⟨k, _, leaves_write hp⟩
  | casFlush k => exact ⟨k, _, leaves_casFlush hp⟩
  | sync k => exact ⟨k, _, leaves_sync hp⟩
  | casRotate k => exact ⟨k, _, leaves_casRotate hp⟩
  | reopen k => exact ⟨k, _, leaves_reopen hp⟩
  | leave k => exact ⟨k, _, leaves_leave hp⟩
  | sCall k e => exact ⟨k, _, leaves_sys (Or.inl hp) hr⟩
  | sUncount k e => exact ⟨k, _, leaves_sys (Or.inr (Or.inl hp)) hr⟩
  | sUnref k e => exact ⟨k, _, leaves_sys (Or.inr (Or.inr hp)) hr⟩
  | sClear k => exact ⟨k, _, leaves_sClear hp⟩
  | _ => rw [hp] at h; cases h

/-- From every reachable state: no put unfinished, nobody inside `flush`; other threads are where they were. -/
theorem calm {c : Cfg} {o : Bool} {s : St} (h : Reach c o s) :
    ∃ s', Steps c s s' ∧ s'.flag = false ∧ (∀ n, n < s'.put.length → s'.phase n = .ready) ∧ s'.owner = s.owner := by
  obtain ⟨s1, a, b1, b2, b3, b4, b5, b6, b7, b8⟩ := finish_puts h
  have h1 := a.reach h
  cases hf : s1.flag with
  | false => exact ⟨s1, a, hf, b6, b5⟩
  | true =>
    obtain ⟨t, ht⟩ := (excl_reach h1).free hf
    obtain ⟨k, n, s2, d1, d2, d3, d4, d5⟩ := leaves_body (c := c) ht b6
    exact ⟨s2, a.trans d1, d3, by rw [d2.put, d2.phase]; exact b6, by rw [d2.owner, b5]⟩

/-! ### a client can finish its call -/

/-- the client is idle at the end, everything is calm again -/
def Idles (c : Cfg) (s : St) (t : Tid) : Prop := ∃ s', Steps c s s' ∧ s'.pc t = .idle

theorem Idles.step {c : Cfg} {s : St} {t : Tid} (h : Idles c (step c s t good) t) : Idles c s t := by
  obtain ⟨s', a, b⟩ := h
  exact ⟨s', .more t good a, b⟩

theorem idles_enter {c : Cfg} {s : St} {t : Tid} (h : s.pc t = .enter .done) (hf : s.flag = false)
    (hr : ∀ n, n < s.put.length → s.phase n = .ready) : Idles c s t := by
  obtain ⟨s', a, _, _, b, _⟩ := leaves_enter (c := c) h hf hr
  exact ⟨s', a, b⟩

theorem idles_async {c : Cfg} {s : St} {t : Tid} (h : s.pc t = .async) (hf : s.flag = false)
    (hr : ∀ n, n < s.put.length → s.phase n = .ready) : Idles c s t := by
  cases hl : c.latency0 with
  | true =>
    have hs : SinkConc.step c s t good = setPc s t (.enter .done) := by
      unfold SinkConc.step; simp only [h]; rw [hl]; rfl
    apply Idles.step
    rw [hs]
    exact idles_enter (by simp [setPc, upd]) hf hr
  | false =>
    have hs : SinkConc.step c s t good = setPc { s with needFlush := true } t .idle := by
      unfold SinkConc.step; simp only [h]; rw [hl]; rfl
    apply Idles.step
    rw [hs]
    exact ⟨_, .refl _, by simp [setPc, upd]⟩

theorem idles_rotate {c : Cfg} {s : St} {t : Tid} (h : s.pc t = .rotate) (hf : s.flag = false)
    (hr : ∀ n, n < s.put.length → s.phase n = .ready) : Idles c s t := by
  apply Idles.step
  cases hl : c.isFile with
  | true =>
    have hs : SinkConc.step c s t good = setPc { s with needRotate := true } t .async := by
      unfold SinkConc.step; simp only [h]; rw [hl]; rfl
    rw [hs]
    exact idles_async (by simp [setPc, upd]) hf hr
  | false =>
    have hs : SinkConc.step c s t good = setPc s t .idle := by
      unfold SinkConc.step; simp only [h]; rw [hl]; rfl
    rw [hs]
    exact ⟨_, .refl _, by simp [setPc, upd]⟩

theorem idles_decide {c : Cfg} {s : St} {t : Tid} (h : s.pc t = .decide) (hf : s.flag = false)
    (hr : ∀ n, n < s.put.length → s.phase n = .ready) : Idles c s t := by
  apply Idles.step
  cases hl : c.latency0 with
  | true =>
    have hs : SinkConc.step c s t good = setPc s t (.enter .done) := by
      unfold SinkConc.step; simp only [h]; rw [hl]; rfl
    rw [hs]
    exact idles_enter (by simp [setPc, upd]) hf hr
  | false =>
    by_cases hm : c.mark ≤ s.size
    · have hs : SinkConc.step c s t good = setPc s t .async := by
        unfold SinkConc.step; simp only [h]; rw [hl, if_neg (by simp), if_pos hm]
      rw [hs]
      exact idles_async (by simp [setPc, upd]) hf hr
    · have hs : SinkConc.step c s t good = setPc s t .idle := by
        unfold SinkConc.step; simp only [h]; rw [hl, if_neg (by simp), if_neg hm]
      rw [hs]
      exact ⟨_, .refl _, by simp [setPc, upd]⟩

theorem idles_put_room {c : Cfg} {s : St} {t : Tid} {e : Event} (h : s.pc t = .put e) (hf : s.flag = false)
    (hh : s.held = false) (hr : ∀ n, n < s.put.length → s.phase n = .ready) (hq : s.queued ≠ c.capacity) :
    Idles c s t := by
  have hs : SinkConc.step c s t good = setPc { s with put := s.put ++ [e] } t (.count s.put.length) := by
    unfold SinkConc.step; simp only [h]; rw [if_neg hq, if_neg (by rw [hh]; simp)]
  apply Idles.step
  rw [hs]
  generalize hs1 : setPc { s with put := s.put ++ [e] } t (.count s.put.length) = s1
  have p1 : s1.pc t = .count s.put.length := by rw [← hs1]; simp [setPc, upd]
  have f1 : s1.flag = false := by rw [← hs1]; exact hf
  have q1 : s1.put = s.put ++ [e] := by rw [← hs1]; rfl
  have r1 : s1.phase = s.phase := by rw [← hs1]; rfl
  apply Idles.step
  have hs2 : SinkConc.step c s1 t good = setPc { s1 with
      size := Sink.addSize s1.size (s1.put.getD s.put.length ⟨0, 0, [], [], .off, []⟩).message.length,
      phase := upd s1.phase s.put.length .counted } t (.release s.put.length) := by
    unfold SinkConc.step; simp only [p1]
  rw [hs2]
  apply Idles.step
  have hs3 : ∀ x : St, x.pc t = .release s.put.length →
      SinkConc.step c x t good = setPc { x with phase := upd x.phase s.put.length .ready } t .decide := by
    intro x hx; unfold SinkConc.step; simp only [hx]
  rw [hs3 _ (by simp [setPc, upd])]
  refine idles_decide (by simp [setPc, upd]) (by exact f1) ?_
  intro n hn
  have hn : n < s1.put.length := hn
  show upd (upd s1.phase s.put.length .counted) s.put.length .ready n = .ready
  unfold upd
  split
  · rfl
  · rename_i hne
    rw [r1]
    apply hr
    rw [q1] at hn
    simp at hn; omega

/-- **completion**: the call a client is in can be finished. -/
theorem client_completes {c : Cfg} {o : Bool} {s : St} (hcap : 0 < c.capacity) (h : Reach c o s) (t : Tid)
    (hrole : (s.pc t).role = 0) : Idles c s t := by
  obtain ⟨s1, a, hf, hr, hown⟩ := calm h
  clear hown
  have h1 := a.reach h
  have hh := (held_reach h1).free hf
  have hrole1 : (s1.pc t).role = 0 := by
    clear hf hr hh h1
    induction a with
    | refl => exact hrole
    | @more s s' u ch _ ih =>
      apply ih (.next h (.step _ u ch))
      by_cases hu : t = u
      · subst hu; rw [step_role]; exact hrole
      · rw [step_pc_other c s u ch t hu]; exact hrole
  have key : Idles c s1 t := by
    have hnb : (s1.pc t).inBody = false := by
      cases hb : (s1.pc t).inBody with
      | false => rfl
      | true => have := (excl_reach h1).flag t hb; rw [hf] at this; cases this
    have htk := tick_reach h1
    have putcase : ∀ e (s2 : St), s2.pc t = .put e → Reach c o s2 → s2.flag = false →
        (∀ n, n < s2.put.length → s2.phase n = .ready) → Idles c s2 t := by
      intro e s2 hp hr2 hf2 hready
      have hh2 := (held_reach hr2).free hf2
      have htk2 := tick_reach hr2
      by_cases hq : s2.queued = c.capacity
      · have hs : SinkConc.step c s2 t good = setPc s2 t (.enter (.retry e)) := by
          unfold SinkConc.step; simp only [hp]; rw [if_pos hq]
        apply Idles.step
        have hr3 : Reach c o (SinkConc.step c s2 t good) := .next hr2 (.step _ t good)
        rw [hs] at hr3 ⊢
        obtain ⟨s3, b1, b2, b3, b4, b5⟩ := leaves_enter (c := c) (s := setPc s2 t (.enter (.retry e))) (t := t)
          (k := .retry e) (by simp [setPc, upd]) hf2 hready
        have hr4 := b1.reach hr3
        have hlt : s2.taken < s2.put.length := by unfold St.queued at hq; omega
        have b5 : s3.taken = s2.taken + takes c (s2.put.length - s2.taken) := b5
        have b2p : s3.put = s2.put := b2.put
        have hpos := takes_pos c (n := s2.put.length - s2.taken) (by omega)
        obtain ⟨s4, d1, d2⟩ := idles_put_room (c := c) (s := s3) (t := t) (e := e) b4 b3 ((held_reach hr4).free b3)
          (by rw [b2p, b2.phase]; exact hready) (by
            unfold St.queued at hq ⊢; rw [b2p, b5]; have := htk2.taken; omega)
        exact ⟨s4, b1.trans d1, d2⟩
      · exact idles_put_room hp hf2 hh2 hready hq
    cases hp : s1.pc t with
    | idle => exact ⟨s1, .refl _, hp⟩
    | put e => exact putcase e s1 hp h1 hf hr
    | count n => have := htk.count t n hp; rw [hr n this.2.1] at this; exact absurd this.2.2 (by simp)
    | release n => have := htk.release t n hp; rw [hr n this.2.1] at this; exact absurd this.2.2 (by simp)
    | decide => exact idles_decide hp hf hr
    | async => exact idles_async hp hf hr
    | rotate => exact idles_rotate hp hf hr
    | enter k =>
      cases k with
      | done => exact idles_enter hp hf hr
      | retry e =>
        obtain ⟨s3, b1, b2, b3, b4, b5⟩ := leaves_enter (c := c) hp hf hr
        obtain ⟨s4, d1, d2⟩ := putcase e s3 b4 (b1.reach h1) b3 (by rw [b2.put, b2.phase]; exact hr)
        exact ⟨s4, b1.trans d1, d2⟩
      | worker => rw [hp] at hrole1; cases hrole1
      | destroy => rw [hp] at hrole1; cases hrole1
    | wWait => rw [hp] at hrole1; cases hrole1
    | wCheck => rw [hp] at hrole1; cases hrole1
    | wSize => rw [hp] at hrole1; cases hrole1
    | wExit => rw [hp] at hrole1; cases hrole1
    | dStart => rw [hp] at hrole1; cases hrole1
    | dAsync => rw [hp] at hrole1; cases hrole1
    | dJoin => rw [hp] at hrole1; cases hrole1
    | dEnd => rw [hp] at hrole1; cases hrole1
    | dead => rw [hp] at hrole1; cases hrole1
    | _ => rw [hp] at hnb; cases hnb
  obtain ⟨s', b, d⟩ := key
  exact ⟨s', a.trans b, d⟩

/-! ### the destructor can finish -/

def Dies (c : Cfg) (s : St) (d : Tid) : Prop := ∃ s', Steps c s s' ∧ s'.pc d = .dead

theorem Dies.step {c : Cfg} {s : St} {d : Tid} (h : Dies c (step c s d good) d) : Dies c s d := by
  obtain ⟨s', a, b⟩ := h
  exact ⟨s', .more d good a, b⟩

theorem dies_dEnd {c : Cfg} {s : St} {d : Tid} (h : s.pc d = .dEnd) : Dies c s d := by
  apply Dies.step
  refine ⟨_, .refl _, ?_⟩
  unfold step; simp only [h]; split <;> simp [setPc, upd]

theorem dies_enter {c : Cfg} {s : St} {d : Tid} (h : s.pc d = .enter .destroy) (hf : s.flag = false)
    (hr : ∀ n, n < s.put.length → s.phase n = .ready) : Dies c s d := by
  obtain ⟨s1, a, _, _, b, _⟩ := leaves_enter (c := c) h hf hr
  obtain ⟨s2, a2, b2⟩ := dies_dEnd (c := c) (s := s1) (d := d) b
  exact ⟨s2, a.trans a2, b2⟩

theorem dies_dJoin_exit {c : Cfg} {s : St} {d : Tid} (h : s.pc d = .dJoin) (hw : s.pc workerTid = .wExit) :
    Dies c s d := by
  have hs : SinkConc.step c s d good = setPc s d .dEnd := by
    unfold SinkConc.step; simp only [h]; rw [if_pos hw]
  apply Dies.step
  rw [hs]
  exact dies_dEnd (by simp [setPc, upd])

/-- The worker reaches its end from any calm state with the request to finish. -/
theorem worker_ends {c : Cfg} {o : Bool} {s : St} (h : Reach c o s) (hf : s.flag = false)
    (hr : ∀ n, n < s.put.length → s.phase n = .ready) (hn : s.needFinalize = true) :
    ∃ s', Steps c s s' ∧ Same s s' workerTid ∧ s'.pc workerTid = .wExit := by
  -- one round of the loop from the wait
  have loop : ∀ (q : Nat) (s : St), s.put.length - s.taken = q → s.pc workerTid = .wWait → Reach c o s → s.flag = false →
      (∀ n, n < s.put.length → s.phase n = .ready) → s.needFinalize = true →
      ∃ s', Steps c s s' ∧ Same s s' workerTid ∧ s'.pc workerTid = .wExit := by
    intro q
    induction q using Nat.strongRecOn with
    | ind q ih =>
      intro s hq hp hrch hf hr hn
      have hs : SinkConc.step c s workerTid good = setPc s workerTid (.enter .worker) := by
        unfold SinkConc.step; simp only [hp]; rfl
      have hr1 : Reach c o (setPc s workerTid (.enter .worker)) := by rw [← hs]; exact .next hrch (.step _ _ _)
      obtain ⟨s1, a1, b1, b2, b3, b4⟩ := leaves_enter (c := c) (s := setPc s workerTid (.enter .worker)) (t := workerTid)
        (k := .worker) (by simp [setPc, upd]) hf hr
      have hS0 : Same s (setPc s workerTid (.enter .worker)) workerTid :=
        ⟨rfl, rfl, rfl, rfl, Nat.le_refl _, fun u hu => by show upd _ _ _ _ = _; rw [upd, if_neg hu]⟩
      have b1 := hS0.trans b1
      have hst1 : Steps c s s1 := .more workerTid good (by rw [hs]; exact a1)
      have hr1 := a1.reach hr1
      have b4 : s1.taken = s.taken + takes c (s.put.length - s.taken) := b4
      have hn1 : s1.needFinalize = true := by rw [b1.fin]; exact hn
      -- the check
      have b3 : s1.pc workerTid = .wCheck := b3
      have hs2 : SinkConc.step c s1 workerTid good = setPc s1 workerTid .wSize := by
        unfold SinkConc.step; simp only [b3]; rw [if_pos (by rw [hn1]; rfl)]
      generalize hs2' : setPc s1 workerTid .wSize = s2 at hs2
      have p2 : s2.pc workerTid = .wSize := by rw [← hs2']; simp [setPc, upd]
      have e2 : Same s1 s2 workerTid := by
        rw [← hs2']
        exact ⟨rfl, rfl, rfl, rfl, Nat.le_refl _, fun u hu => by show upd _ _ _ _ = _; rw [upd, if_neg hu]⟩
      have t2 : s2.taken = s1.taken := by rw [← hs2']; rfl
      have f2 : s2.flag = false := by rw [← hs2']; exact b2
      have hr2 : Reach c o s2 := by rw [← hs2]; exact .next hr1 (.step _ _ _)
      have hst2 : Steps c s s2 := hst1.trans (.more workerTid good (by rw [hs2]; exact .refl _))
      by_cases hz : s2.queued = 0
      · refine ⟨SinkConc.step c s2 workerTid good, hst2.trans (.more workerTid good (.refl _)), ?_⟩
        have hs3 : SinkConc.step c s2 workerTid good = setPc s2 workerTid .wExit := by
          unfold SinkConc.step; simp only [p2]; rw [if_pos hz]
        rw [hs3]
        refine ⟨?_, by simp [setPc, upd]⟩
        exact (b1.trans e2).trans ⟨rfl, rfl, rfl, rfl, Nat.le_refl _,
          fun u hu => by show upd _ _ _ _ = _; rw [upd, if_neg hu]⟩
      · have hs3 : SinkConc.step c s2 workerTid good = setPc s2 workerTid .wWait := by
          unfold SinkConc.step; simp only [p2]; rw [if_neg hz]
        have hS3 : Same s2 (setPc s2 workerTid .wWait) workerTid :=
          ⟨rfl, rfl, rfl, rfl, Nat.le_refl _, fun u hu => by show upd _ _ _ _ = _; rw [upd, if_neg hu]⟩
        have hp2 : s2.put = s.put := e2.put.trans b1.put
        have hph2 : s2.phase = s.phase := e2.phase.trans b1.phase
        unfold St.queued at hz
        rw [hp2, t2] at hz
        have hlt : s.taken < s.put.length := by have := b1.taken; omega
        have hpos := takes_pos c (n := s.put.length - s.taken) (by omega)
        obtain ⟨s4, a4, b5, b6⟩ := ih (s2.put.length - s2.taken) (by rw [hp2, t2]; omega) (setPc s2 workerTid .wWait) rfl
          (by simp [setPc, upd]) (by rw [← hs3]; exact .next hr2 (.step _ _ _)) f2
          (by show ∀ n, n < s2.put.length → s2.phase n = .ready; rw [hp2, hph2]; exact hr)
          (by show s2.needFinalize = true; rw [e2.fin]; exact hn1)
        refine ⟨s4, hst2.trans (.more workerTid good (by rw [hs3]; exact a4)), ?_, b6⟩
        exact ((b1.trans e2).trans hS3).trans b5
  -- reach the wait from wherever the worker is
  have hnb : (s.pc workerTid).inBody = false := by
    cases hb : (s.pc workerTid).inBody with
    | false => rfl
    | true => have := (excl_reach h).flag _ hb; rw [hf] at this; cases this
  have hrole := (roles_reach h).worker
  have fromSize : ∀ s : St, s.pc workerTid = .wSize → Reach c o s → s.flag = false →
      (∀ n, n < s.put.length → s.phase n = .ready) → s.needFinalize = true →
      ∃ s', Steps c s s' ∧ Same s s' workerTid ∧ s'.pc workerTid = .wExit := by
    intro s hp hrch hf hr hn
    have hS : ∀ p, Same s (setPc s workerTid p) workerTid := fun p =>
      ⟨rfl, rfl, rfl, rfl, Nat.le_refl _, fun u hu => by show upd _ _ _ _ = _; rw [upd, if_neg hu]⟩
    by_cases hz : s.queued = 0
    · have hs3 : SinkConc.step c s workerTid good = setPc s workerTid .wExit := by
        unfold SinkConc.step; simp only [hp]; rw [if_pos hz]
      exact ⟨_, .more workerTid good (by rw [hs3]; exact .refl _), hS _, by simp [setPc, upd]⟩
    · have hs3 : SinkConc.step c s workerTid good = setPc s workerTid .wWait := by
        unfold SinkConc.step; simp only [hp]; rw [if_neg hz]
      obtain ⟨s4, a4, b5, b6⟩ := loop _ (setPc s workerTid .wWait) rfl (by simp [setPc, upd])
        (by rw [← hs3]; exact .next hrch (.step _ _ _)) hf hr hn
      exact ⟨s4, .more workerTid good (by rw [hs3]; exact a4), (hS _).trans b5, b6⟩
  have fromCheck : ∀ s : St, s.pc workerTid = .wCheck → Reach c o s → s.flag = false →
      (∀ n, n < s.put.length → s.phase n = .ready) → s.needFinalize = true →
      ∃ s', Steps c s s' ∧ Same s s' workerTid ∧ s'.pc workerTid = .wExit := by
    intro s hp hrch hf hr hn
    have hS : ∀ p, Same s (setPc s workerTid p) workerTid := fun p =>
      ⟨rfl, rfl, rfl, rfl, Nat.le_refl _, fun u hu => by show upd _ _ _ _ = _; rw [upd, if_neg hu]⟩
    have hs3 : SinkConc.step c s workerTid good = setPc s workerTid .wSize := by
      unfold SinkConc.step; simp only [hp]; rw [if_pos (by rw [hn]; rfl)]
    obtain ⟨s4, a4, b5, b6⟩ := fromSize (setPc s workerTid .wSize) (by simp [setPc, upd])
        (by rw [← hs3]; exact .next hrch (.step _ _ _)) hf hr hn
    exact ⟨s4, .more workerTid good (by rw [hs3]; exact a4), (hS _).trans b5, b6⟩
  cases hp : s.pc workerTid with
  | wWait => exact loop _ s rfl hp h hf hr hn
  | wExit => exact ⟨s, .refl _, ⟨rfl, rfl, rfl, rfl, Nat.le_refl _, fun _ _ => rfl⟩, hp⟩
  | wCheck => exact fromCheck s hp h hf hr hn
  | wSize => exact fromSize s hp h hf hr hn
  | enter k =>
    cases k with
    | worker =>
      obtain ⟨s1, a1, b1, b2, b3, b4⟩ := leaves_enter (c := c) hp hf hr
      obtain ⟨s4, a4, b5, b6⟩ := fromCheck s1 b3 (a1.reach h) b2 (by rw [b1.put, b1.phase]; exact hr)
        (by rw [b1.fin]; exact hn)
      exact ⟨s4, a1.trans a4, b1.trans b5, b6⟩
    | done => rw [hp] at hrole; cases hrole
    | retry e => rw [hp] at hrole; cases hrole
    | destroy => rw [hp] at hrole; cases hrole
  | idle => rw [hp] at hrole; cases hrole
  | put => rw [hp] at hrole; cases hrole
  | count => rw [hp] at hrole; cases hrole
  | release => rw [hp] at hrole; cases hrole
  | decide => rw [hp] at hrole; cases hrole
  | async => rw [hp] at hrole; cases hrole
  | rotate => rw [hp] at hrole; cases hrole
  | dStart => rw [hp] at hrole; cases hrole
  | dAsync => rw [hp] at hrole; cases hrole
  | dJoin => rw [hp] at hrole; cases hrole
  | dEnd => rw [hp] at hrole; cases hrole
  | dead => rw [hp] at hrole; cases hrole
  | _ => rw [hp] at hnb; cases hnb

theorem destructor_completes {c : Cfg} {o : Bool} {s : St} (h : Reach c o s) (d : Tid) (hd : s.owner = some d) :
    Dies c s d := by
  obtain ⟨s1, a, hf, hr, hown⟩ := calm h
  have h1 := a.reach h
  have hd1 : s1.owner = some d := hown.trans hd
  obtain ⟨hdw, hrole, _⟩ := (roles_reach h1).owner d hd1
  have hfin := final_reach h1
  have join : ∀ s : St, s.pc d = .dJoin → Reach c o s → s.flag = false →
      (∀ n, n < s.put.length → s.phase n = .ready) → s.needFinalize = true → Dies c s d := by
    intro s hp hrch hf hr hn
    obtain ⟨s2, a2, b2, b3⟩ := worker_ends hrch hf hr hn
    obtain ⟨s3, a3, b4⟩ := dies_dJoin_exit (c := c) (s := s2) (d := d) (by rw [b2.pc d hdw]; exact hp) b3
    exact ⟨s3, a2.trans a3, b4⟩
  have async : ∀ s : St, s.pc d = .dAsync → Reach c o s → s.flag = false →
      (∀ n, n < s.put.length → s.phase n = .ready) → s.needFinalize = true → Dies c s d := by
    intro s hp hrch hf hr hn
    have hs : SinkConc.step c s d good = setPc { s with needFlush := true } d .dJoin := by
      unfold SinkConc.step; simp only [hp]
    apply Dies.step
    have := join (setPc { s with needFlush := true } d .dJoin) (by simp [setPc, upd])
      (by rw [← hs]; exact .next hrch (.step _ _ _)) hf hr hn
    rw [hs]; exact this
  have hnb : (s1.pc d).inBody = false := by
    cases hb : (s1.pc d).inBody with
    | false => rfl
    | true => have := (excl_reach h1).flag d hb; rw [hf] at this; cases this
  have key : Dies c s1 d := by
    cases hl : c.latency0 with
    | false =>
      rcases hfin.own d hd1 hl with hp | ⟨hn, hp | hp | hp | hp⟩
      · have hs : SinkConc.step c s1 d good = setPc { s1 with needFinalize := true } d .dAsync := by
          unfold SinkConc.step; simp only [hp]; rw [hl]; rfl
        apply Dies.step
        have := async (setPc { s1 with needFinalize := true } d .dAsync) (by simp [setPc, upd])
          (by rw [← hs]; exact .next h1 (.step _ _ _)) hf hr rfl
        rw [hs]; exact this
      · exact async s1 hp h1 hf hr hn
      · exact join s1 hp h1 hf hr hn
      · exact dies_dEnd hp
      · exact ⟨s1, .refl _, hp⟩
    | true =>
      have hw := hfin.lat0 hl
      cases hp : s1.pc d with
      | dStart =>
        have hs : SinkConc.step c s1 d good = setPc s1 d (.enter .destroy) := by
          unfold SinkConc.step; simp only [hp]; rw [hl]; rfl
        apply Dies.step
        rw [hs]
        exact dies_enter (by simp [setPc, upd]) hf hr
      | enter k =>
        cases k with
        | destroy => exact dies_enter hp hf hr
        | worker => rw [hp] at hrole; cases hrole
        | done => rw [hp] at hrole; cases hrole
        | retry e => rw [hp] at hrole; cases hrole
      | dAsync =>
        have hs : SinkConc.step c s1 d good = setPc { s1 with needFlush := true } d .dJoin := by
          unfold SinkConc.step; simp only [hp]
        apply Dies.step
        rw [hs]
        refine dies_dJoin_exit (by simp [setPc, upd]) ?_
        show upd _ _ _ _ = _
        rw [upd, if_neg (Ne.symm hdw)]; exact hw
      | dJoin => exact dies_dJoin_exit hp hw
      | dEnd => exact dies_dEnd hp
      | dead => exact ⟨s1, .refl _, hp⟩
      | idle => rw [hp] at hrole; cases hrole
      | put => rw [hp] at hrole; cases hrole
      | count => rw [hp] at hrole; cases hrole
      | release => rw [hp] at hrole; cases hrole
      | decide => rw [hp] at hrole; cases hrole
      | async => rw [hp] at hrole; cases hrole
      | rotate => rw [hp] at hrole; cases hrole
      | wWait => rw [hp] at hrole; cases hrole
      | wCheck => rw [hp] at hrole; cases hrole
      | wSize => rw [hp] at hrole; cases hrole
      | wExit => rw [hp] at hrole; cases hrole
      | _ => rw [hp] at hnb; cases hnb
  obtain ⟨s', b, e⟩ := key
  exact ⟨s', a.trans b, e⟩

end SinkConc
end Soralog
