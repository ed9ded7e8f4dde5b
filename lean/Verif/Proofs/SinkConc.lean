import Verif.Spec.SinkConcTerms
import Verif.Model.SinkConc
/-!
# Invariants of the concurrent sink model
-/
namespace Soralog
namespace SinkConc

/-- who runs this: 0 = client, 1 = worker, 2 = destructor -/
def Ret.role : Ret → Nat
  | .done => 0 | .retry _ => 0 | .worker => 1 | .destroy => 2

@[grind =] def PC.role : PC → Nat
  | .idle | .put _ | .count _ | .release _ | .decide | .async | .rotate => 0
  | .enter k | .get k | .uncount k _ | .unref k _ | .write k _ | .casFlush k | .sync k | .casRotate k | .reopen k
  | .leave k | .sCall k _ | .sUncount k _ | .sUnref k _ | .sClear k => k.role
  | .wWait | .wCheck | .wSize | .wExit => 1
  | .dStart | .dAsync | .dJoin | .dEnd | .dead => 2

/-- the event taken but not yet handed to the stream -/
@[grind =] def PC.flight : PC → List Event
  | .uncount _ e => [e]
  | .unref _ e => [e]
  | .write _ (some e) => [e]
  | .sCall _ e => [e]
  | _ => []

/-- the position this thread's `put` occupies -/
@[grind =] def PC.ticket : PC → Option Nat
  | .count n => some n
  | .release n => some n
  | _ => none

theorem role_taking (c : Cfg) (k : Ret) (e : Event) : (taking c k e).role = k.role := by unfold taking; split <;> rfl
theorem inBody_taking (c : Cfg) (k : Ret) (e : Event) : (taking c k e).inBody = true := by unfold taking; split <;> rfl
theorem flight_taking (c : Cfg) (k : Ret) (e : Event) : (taking c k e).flight = [e] := by unfold taking; split <;> rfl
theorem ticket_taking (c : Cfg) (k : Ret) (e : Event) : (taking c k e).ticket = none := by unfold taking; split <;> rfl
theorem role_nothing (c : Cfg) (k : Ret) : (nothing c k).role = k.role := by unfold nothing; split <;> rfl
theorem inBody_nothing (c : Cfg) (k : Ret) : (nothing c k).inBody = true := by unfold nothing; split <;> rfl
theorem flight_nothing (c : Cfg) (k : Ret) : (nothing c k).flight = [] := by unfold nothing; split <;> rfl
theorem ticket_nothing (c : Cfg) (k : Ret) : (nothing c k).ticket = none := by unfold nothing; split <;> rfl
theorem role_afterFlush (k : Ret) : (afterFlush k).role = k.role := by cases k <;> rfl
theorem inBody_afterFlush (k : Ret) : (afterFlush k).inBody = false := by cases k <;> rfl
theorem flight_afterFlush (k : Ret) : (afterFlush k).flight = [] := by cases k <;> rfl
theorem ticket_afterFlush (k : Ret) : (afterFlush k).ticket = none := by cases k <;> rfl

/-! ### generic facts about one step -/

/-- the new program counter of the stepping thread -/
theorem step_pc_other (c : Cfg) (s : St) (t : Tid) (ch : Ch) (u : Tid) (h : u ≠ t) : (step c s t ch).pc u = s.pc u := by
  unfold step
  repeat' split
  all_goals first | rfl | (simp [setPc, upd, h])

theorem step_owner (c : Cfg) (s : St) (t : Tid) (ch : Ch) : (step c s t ch).owner = s.owner := by
  unfold step
  repeat' split
  all_goals rfl

theorem step_role (c : Cfg) (s : St) (t : Tid) (ch : Ch) : ((step c s t ch).pc t).role = (s.pc t).role := by
  unfold step
  repeat' split
  all_goals (simp only [setPc, upd, if_true, *] <;> first | rfl | exact role_afterFlush _ | exact role_taking _ _ _ | exact role_nothing _ _)

/-! ### G1: roles -/

structure Roles (s : St) : Prop where
  worker : (s.pc workerTid).role = 1
  clients : s.owner = none → ∀ t, t ≠ workerTid → (s.pc t).role = 0
  owner : ∀ d, s.owner = some d → d ≠ workerTid ∧ (s.pc d).role = 2 ∧
    ∀ u, u ≠ workerTid → u ≠ d → s.pc u = .idle

theorem roles_step {c : Cfg} {s : St} (h : Roles s) (t : Tid) (ch : Ch) : Roles (step c s t ch) := by
  refine ⟨?_, ?_, ?_⟩
  · by_cases ht : workerTid = t
    · subst ht; rw [step_role]; exact h.worker
    · rw [step_pc_other c s t ch _ ht]; exact h.worker
  · intro ho u hu
    rw [step_owner] at ho
    by_cases ht : u = t
    · subst ht; rw [step_role]; exact h.clients ho u hu
    · rw [step_pc_other c s t ch _ ht]; exact h.clients ho u hu
  · intro d ho
    rw [step_owner] at ho
    obtain ⟨h1, h2, h3⟩ := h.owner d ho
    refine ⟨h1, ?_, ?_⟩
    · by_cases ht : d = t
      · subst ht; rw [step_role]; exact h2
      · rw [step_pc_other c s t ch _ ht]; exact h2
    · intro u hu hd
      have hi := h3 u hu hd
      by_cases ht : u = t
      · subst ht
        unfold step; rw [hi]; exact hi
      · rw [step_pc_other c s t ch _ ht]; exact hi

theorem roles_reach {c : Cfg} {o : Bool} {s : St} (h : Reach c o s) : Roles s := by
  induction h with
  | init =>
    refine ⟨?_, ?_, ?_⟩
    · simp only [init, if_true]; split <;> rfl
    · intro _ t ht; simp [init, ht, PC.role]
    · intro d hd; cases hd
  | next _ he ih =>
    cases he with
    | step t ch => exact roles_step ih t ch
    | call t ht hi hd call =>
      refine ⟨?_, ?_, ?_⟩
      · show PC.role (upd _ t _ workerTid) = 1
        rw [upd, if_neg (Ne.symm ht)]; exact ih.worker
      · intro ho u hu
        show PC.role (upd _ t _ u) = 0
        unfold upd
        split
        · cases call <;> rfl
        · exact ih.clients hd u hu
      · intro d ho
        have : (none : Option Tid) = some d := hd.symm.trans ho
        cases this
    | destroy t ht hd hi =>
      refine ⟨?_, ?_, ?_⟩
      · show PC.role (upd _ t _ workerTid) = 1
        rw [upd, if_neg (Ne.symm ht)]; exact ih.worker
      · intro ho; cases ho
      · intro d ho
        have : t = d := Option.some.inj ho
        subst this
        refine ⟨ht, ?_, ?_⟩
        · show PC.role (upd _ t _ t) = 2
          rw [upd, if_pos rfl]; rfl
        · intro u hu hud
          show upd _ t _ u = _
          rw [upd, if_neg hud]; exact hi u hu

/-! ### G2: at most one thread inside the body of `flush` -/

structure Excl (s : St) : Prop where
  uniq : ∀ t u, (s.pc t).inBody = true → (s.pc u).inBody = true → t = u
  flag : ∀ t, (s.pc t).inBody = true → s.flag = true
  free : s.flag = true → ∃ t, (s.pc t).inBody = true

/-- how a step changes the flag and membership of the body -/
theorem step_body (c : Cfg) (s : St) (t : Tid) (ch : Ch) :
    (((step c s t ch).pc t).inBody = (s.pc t).inBody ∧ (step c s t ch).flag = s.flag) ∨
    ((s.pc t).inBody = false ∧ s.flag = false ∧ ((step c s t ch).pc t).inBody = true ∧ (step c s t ch).flag = true) ∨
    ((s.pc t).inBody = true ∧ ((step c s t ch).pc t).inBody = false ∧ (step c s t ch).flag = false) := by
  unfold step
  repeat' split
  all_goals simp_all [setPc, upd, inBody_afterFlush, inBody_taking, inBody_nothing]
  all_goals simp_all [PC.inBody]

theorem excl_reach {c : Cfg} {o : Bool} {s : St} (h : Reach c o s) : Excl s := by
  induction h with
  | init =>
    have : ∀ t, ((init c o).pc t).inBody = false := by
      intro t; simp only [init]; split
      · split <;> rfl
      · rfl
    exact ⟨fun t u h => (by rw [this] at h; cases h), fun t h => (by rw [this] at h; cases h), fun h => (by cases h)⟩
  | @next s s' hr he ih =>
    have frame : ∀ (t : Tid) (p : PC) (s'' : St), s''.pc = upd s.pc t p → s''.flag = s.flag → (s.pc t).inBody = false →
        p.inBody = false → Excl s'' := by
      intro t p s'' hp hf h1 h2
      have key : ∀ u, (s''.pc u).inBody = (s.pc u).inBody := by
        intro u; rw [hp]; unfold upd; split
        · rename_i h; subst h; rw [h1, h2]
        · rfl
      refine ⟨?_, ?_, ?_⟩
      · intro t u ha hb; rw [key] at ha hb; exact ih.uniq t u ha hb
      · intro t ha; rw [key] at ha; rw [hf]; exact ih.flag t ha
      · intro ha; rw [hf] at ha; obtain ⟨t, ht⟩ := ih.free ha; exact ⟨t, by rw [key]; exact ht⟩
    cases he with
    | call t ht hi hd call =>
      refine frame t _ _ rfl rfl (by rw [hi]; rfl) ?_
      cases call <;> rfl
    | destroy t ht hd hi => exact frame t _ _ rfl rfl (by rw [hi t ht]; rfl) rfl
    | step t ch =>
      have hother : ∀ u, u ≠ t → (step c s t ch).pc u = s.pc u := fun u hu => step_pc_other c s t ch u hu
      rcases step_body c s t ch with ⟨h1, h2⟩ | ⟨h1, h2, h3, h4⟩ | ⟨h1, h2, h3⟩
      · have key : ∀ u, ((step c s t ch).pc u).inBody = (s.pc u).inBody := by
          intro u
          by_cases hu : u = t
          · subst hu; exact h1
          · rw [hother u hu]
        refine ⟨?_, ?_, ?_⟩
        · intro t u ha hb; rw [key] at ha hb; exact ih.uniq t u ha hb
        · intro t ha; rw [key] at ha; rw [h2]; exact ih.flag t ha
        · intro ha; rw [h2] at ha; obtain ⟨t, ht⟩ := ih.free ha; exact ⟨t, by rw [key]; exact ht⟩
      · have hnone : ∀ u, u ≠ t → ((step c s t ch).pc u).inBody = false := by
          intro u hu
          rw [hother u hu]
          cases hb : (s.pc u).inBody with
          | false => rfl
          | true => have := ih.flag u hb; rw [h2] at this; cases this
        refine ⟨?_, fun _ _ => h4, fun _ => ⟨t, h3⟩⟩
        intro a b ha hb
        by_cases hat : a = t
        · by_cases hbt : b = t
          · rw [hat, hbt]
          · rw [hnone b hbt] at hb; cases hb
        · rw [hnone a hat] at ha; cases ha
      · have hnone : ∀ u, ((step c s t ch).pc u).inBody = false := by
          intro u
          by_cases hu : u = t
          · subst hu; exact h2
          · rw [hother u hu]
            cases hb : (s.pc u).inBody with
            | false => rfl
            | true => exact absurd (ih.uniq u t hb h1) hu
        refine ⟨fun a b ha => (by rw [hnone] at ha; cases ha), fun a ha => (by rw [hnone] at ha; cases ha), ?_⟩
        intro hf; rw [h3] at hf; cases hf

/-! ### G3: positions and phases of queued elements -/

/-- what a step does to the queue -/
theorem step_queue (c : Cfg) (s : St) (t : Tid) (ch : Ch) :
    ((step c s t ch).put = s.put ∧ (step c s t ch).taken = s.taken ∧ (step c s t ch).phase = s.phase ∧
      (s.pc t).ticket = none ∧ ((step c s t ch).pc t).ticket = none) ∨
    (∃ e, s.pc t = .put e ∧ s.queued ≠ c.capacity ∧ step c s t ch =
      setPc { s with put := s.put ++ [e] } t (.count s.put.length)) ∨
    (∃ n, s.pc t = .count n ∧ step c s t ch =
      setPc { s with size := Sink.addSize s.size (s.put.getD n ⟨0, 0, [], [], .off, []⟩).message.length,
                     phase := upd s.phase n .counted } t (.release n)) ∨
    (∃ n, s.pc t = .release n ∧ step c s t ch = setPc { s with phase := upd s.phase n .ready } t .decide) ∨
    (∃ k e, s.pc t = .get k ∧ s.put[s.taken]? = some e ∧ s.phase s.taken = .ready ∧
      step c s t ch = setPc { s with taken := s.taken + 1, held := true } t (taking c k e)) := by
  cases hp : s.pc t with
  | put e =>
    unfold step; simp only [hp]
    split
    · exact Or.inl ⟨rfl, rfl, rfl, rfl, by simp [setPc, upd, PC.ticket]⟩
    · split
      · exact Or.inl ⟨rfl, rfl, rfl, rfl, by rw [hp]; rfl⟩
      · rename_i h _; exact Or.inr (Or.inl ⟨e, rfl, h, rfl⟩)
  | count n => refine Or.inr (Or.inr (Or.inl ⟨n, rfl, ?_⟩)); unfold step; simp only [hp]
  | release n => refine Or.inr (Or.inr (Or.inr (Or.inl ⟨n, rfl, ?_⟩))); unfold step; simp only [hp]
  | get k =>
    unfold step; simp only [hp]
    split
    · exact Or.inl ⟨rfl, rfl, rfl, rfl, by simp [setPc, upd, ticket_nothing]⟩
    · rename_i e he
      split
      · rename_i hr; exact Or.inr (Or.inr (Or.inr (Or.inr ⟨k, e, rfl, he, hr, rfl⟩)))
      · exact Or.inl ⟨rfl, rfl, rfl, rfl, by rw [hp]; rfl⟩
  | write k e =>
    left
    cases e with
    | none => unfold step; simp only [hp]; simp [setPc, upd, PC.ticket]
    | some e => unfold step; simp only [hp]; split <;> simp [setPc, upd, PC.ticket]
  | enter k => left; unfold step; simp only [hp]; split <;> simp [setPc, upd, ticket_afterFlush] <;> first | rfl | exact ⟨rfl, rfl⟩ | (simp [PC.ticket])
  | leave k => left; unfold step; simp only [hp]; simp [setPc, upd, ticket_afterFlush]; rfl
  | idle => left; unfold step; simp only [hp]; simp [PC.ticket, hp]
  | decide => left; unfold step; simp only [hp]; repeat' split
              all_goals simp [setPc, upd, PC.ticket]
  | async => left; unfold step; simp only [hp]; split <;> simp [setPc, upd, PC.ticket]
  | rotate => left; unfold step; simp only [hp]; split <;> simp [setPc, upd, PC.ticket]
  | uncount k e => left; unfold step; simp only [hp]; simp [setPc, upd, PC.ticket]
  | sCall k e => left; unfold step; simp only [hp]; simp [setPc, upd, PC.ticket]
  | sUncount k e => left; unfold step; simp only [hp]; simp [setPc, upd, PC.ticket]
  | sUnref k e => left; unfold step; simp only [hp]; simp [setPc, upd, PC.ticket]
  | sClear k => left; unfold step; simp only [hp]; simp [setPc, upd, PC.ticket]
  | unref k e => left; unfold step; simp only [hp]; simp [setPc, upd, PC.ticket]
  | casFlush k => left; unfold step; simp only [hp]; split <;> simp [setPc, upd, PC.ticket]
  | sync k => left; unfold step; simp only [hp]; simp [setPc, upd, PC.ticket]
  | casRotate k => left; unfold step; simp only [hp]; split <;> simp [setPc, upd, PC.ticket]
  | reopen k => left; unfold step; simp only [hp]; split <;> simp [setPc, upd, PC.ticket]
  | wWait => left; unfold step; simp only [hp]; split <;> simp [setPc, upd, PC.ticket, hp]
  | wCheck => left; unfold step; simp only [hp]; split <;> simp [setPc, upd, PC.ticket]
  | wSize => left; unfold step; simp only [hp]; split <;> simp [setPc, upd, PC.ticket]
  | wExit => left; unfold step; simp only [hp]; simp [PC.ticket, hp]
  | dStart => left; unfold step; simp only [hp]; split <;> simp [setPc, upd, PC.ticket]
  | dAsync => left; unfold step; simp only [hp]; simp [setPc, upd, PC.ticket]
  | dJoin => left; unfold step; simp only [hp]; split <;> simp [setPc, upd, PC.ticket, hp]
  | dEnd => left; unfold step; simp only [hp]; split <;> simp [setPc, upd, PC.ticket]
  | dead => left; unfold step; simp only [hp]; simp [PC.ticket, hp]

structure Tick (c : Cfg) (s : St) : Prop where
  taken : s.taken ≤ s.put.length
  cap : s.put.length ≤ s.taken + c.capacity
  old : ∀ n, n < s.taken → s.phase n = .ready
  fresh : ∀ n, s.put.length ≤ n → s.phase n = .made
  count : ∀ t n, s.pc t = .count n → s.taken ≤ n ∧ n < s.put.length ∧ s.phase n = .made
  release : ∀ t n, s.pc t = .release n → s.taken ≤ n ∧ n < s.put.length ∧ s.phase n = .counted
  uniq : ∀ t u n, (s.pc t).ticket = some n → (s.pc u).ticket = some n → t = u

theorem ticket_cases {p : PC} {n : Nat} (h : p.ticket = some n) : p = .count n ∨ p = .release n := by
  cases p <;> simp [PC.ticket] at h
  · exact Or.inl (congrArg _ h)
  · exact Or.inr (congrArg _ h)

theorem Tick.bound {c : Cfg} {s : St} (h : Tick c s) {t : Tid} {n : Nat} (ht : (s.pc t).ticket = some n) :
    s.taken ≤ n ∧ n < s.put.length := by
  rcases ticket_cases ht with h' | h'
  · exact ⟨(h.count t n h').1, (h.count t n h').2.1⟩
  · exact ⟨(h.release t n h').1, (h.release t n h').2.1⟩

/-- nothing about the queue changed, one thread moved between two points without a ticket -/
theorem tick_frame {c : Cfg} {s s' : St} (h : Tick c s) (h1 : s'.put = s.put) (h2 : s'.taken = s.taken)
    (h3 : s'.phase = s.phase) (t : Tid) (hp : (s.pc t).ticket = none) (hp' : (s'.pc t).ticket = none)
    (ho : ∀ u, u ≠ t → s'.pc u = s.pc u) : Tick c s' := by
  have hne : ∀ u n, (s'.pc u).ticket = some n → s'.pc u = s.pc u := by
    intro u n hu
    by_cases hut : u = t
    · subst hut; rw [hp'] at hu; cases hu
    · exact ho u hut
  refine ⟨by rw [h1, h2]; exact h.taken, by rw [h1, h2]; exact h.cap, by rw [h2, h3]; exact h.old,
    by rw [h1, h3]; exact h.fresh, ?_, ?_, ?_⟩
  · intro u n hu
    have := hne u n (by rw [hu]; rfl)
    rw [this] at hu
    rw [h1, h2, h3]; exact h.count u n hu
  · intro u n hu
    have := hne u n (by rw [hu]; rfl)
    rw [this] at hu
    rw [h1, h2, h3]; exact h.release u n hu
  · intro u v n hu hv
    rw [hne u n hu] at hu
    rw [hne v n hv] at hv
    exact h.uniq u v n hu hv

theorem tick_step {c : Cfg} {s : St} (h : Tick c s) (t : Tid) (ch : Ch) : Tick c (step c s t ch) := by
  rcases step_queue c s t ch with ⟨h1, h2, h3, h4, h5⟩ | ⟨e, hp, hq, hs⟩ | ⟨n, hp, hs⟩ | ⟨n, hp, hs⟩ |
    ⟨k, e, hp, he, hr, hs⟩
  · exact tick_frame h h1 h2 h3 t h4 h5 (fun u hu => step_pc_other c s t ch u hu)
  · rw [hs]
    have hcap := h.cap
    have htk := h.taken
    unfold St.queued at hq
    refine ⟨?_, ?_, h.old, ?_, ?_, ?_, ?_⟩
    · show s.taken ≤ (s.put ++ [e]).length; simp; omega
    · show (s.put ++ [e]).length ≤ _; simp only [List.length_append, List.length_singleton]
      show _ ≤ s.taken + _
      omega
    · intro n hn
      have hn : (s.put ++ [e]).length ≤ n := hn
      exact h.fresh n (by simp at hn; omega)
    · intro u n hu
      show s.taken ≤ n ∧ n < (s.put ++ [e]).length ∧ s.phase n = _
      have hu : upd s.pc t (.count s.put.length) u = .count n := hu
      unfold upd at hu
      split at hu
      · cases hu
        refine ⟨htk, by simp, h.fresh _ (Nat.le_refl _)⟩
      · have := h.count u n hu
        exact ⟨this.1, by simp; omega, this.2.2⟩
    · intro u n hu
      show s.taken ≤ n ∧ n < (s.put ++ [e]).length ∧ s.phase n = _
      have hu : upd s.pc t (.count s.put.length) u = .release n := hu
      unfold upd at hu
      split at hu
      · cases hu
      · have := h.release u n hu
        exact ⟨this.1, by simp; omega, this.2.2⟩
    · intro u v n hu hv
      have hu : (upd s.pc t (.count s.put.length) u).ticket = some n := hu
      have hv : (upd s.pc t (.count s.put.length) v).ticket = some n := hv
      unfold upd at hu hv
      split at hu
      · split at hv
        · rename_i a b; rw [a, b]
        · have := h.bound hv
          simp [PC.ticket] at hu; omega
      · split at hv
        · have := h.bound hu
          simp [PC.ticket] at hv; omega
        · exact h.uniq u v n hu hv
  · rw [hs]
    obtain ⟨b1, b2, b3⟩ := h.count t n hp
    have other : ∀ u m, u ≠ t → (s.pc u).ticket = some m → m ≠ n := by
      intro u m hu hm hmn
      subst hmn
      exact hu (h.uniq u t m hm (by rw [hp]; rfl))
    refine ⟨h.taken, h.cap, ?_, ?_, ?_, ?_, ?_⟩
    · intro m hm
      show upd s.phase n .counted m = _
      have hm : m < s.taken := hm
      rw [upd, if_neg (by omega)]; exact h.old m hm
    · intro m hm
      show upd s.phase n .counted m = _
      have hm : s.put.length ≤ m := hm
      rw [upd, if_neg (by omega)]; exact h.fresh m hm
    · intro u m hu
      show s.taken ≤ m ∧ m < s.put.length ∧ upd s.phase n .counted m = _
      have hu : upd s.pc t (.release n) u = .count m := hu
      unfold upd at hu
      split at hu
      · cases hu
      · rename_i hut
        have := h.count u m hu
        rw [upd, if_neg (other u m hut (by rw [hu]; rfl))]
        exact this
    · intro u m hu
      show s.taken ≤ m ∧ m < s.put.length ∧ upd s.phase n .counted m = _
      have hu : upd s.pc t (.release n) u = .release m := hu
      unfold upd at hu
      split at hu
      · cases hu
        exact ⟨b1, b2, by rw [upd, if_pos rfl]⟩
      · rename_i hut
        have := h.release u m hu
        rw [upd, if_neg (other u m hut (by rw [hu]; rfl))]
        exact this
    · intro u v m hu hv
      have hu : (upd s.pc t (.release n) u).ticket = some m := hu
      have hv : (upd s.pc t (.release n) v).ticket = some m := hv
      have conv : ∀ w, (upd s.pc t (.release n) w).ticket = some m → (s.pc w).ticket = some m := by
        intro w hw
        unfold upd at hw
        split at hw
        · rename_i hwt; rw [hwt, hp]; exact hw
        · exact hw
      exact h.uniq u v m (conv u hu) (conv v hv)
  · rw [hs]
    obtain ⟨b1, b2, b3⟩ := h.release t n hp
    have other : ∀ u m, u ≠ t → (s.pc u).ticket = some m → m ≠ n := by
      intro u m hu hm hmn
      subst hmn
      exact hu (h.uniq u t m hm (by rw [hp]; rfl))
    refine ⟨h.taken, h.cap, ?_, ?_, ?_, ?_, ?_⟩
    · intro m hm
      show upd s.phase n .ready m = _
      have hm : m < s.taken := hm
      rw [upd, if_neg (by omega)]; exact h.old m hm
    · intro m hm
      show upd s.phase n .ready m = _
      have hm : s.put.length ≤ m := hm
      rw [upd, if_neg (by omega)]; exact h.fresh m hm
    · intro u m hu
      show s.taken ≤ m ∧ m < s.put.length ∧ upd s.phase n .ready m = _
      have hu : upd s.pc t .decide u = .count m := hu
      unfold upd at hu
      split at hu
      · cases hu
      · rename_i hut
        have := h.count u m hu
        rw [upd, if_neg (other u m hut (by rw [hu]; rfl))]
        exact this
    · intro u m hu
      show s.taken ≤ m ∧ m < s.put.length ∧ upd s.phase n .ready m = _
      have hu : upd s.pc t .decide u = .release m := hu
      unfold upd at hu
      split at hu
      · cases hu
      · rename_i hut
        have := h.release u m hu
        rw [upd, if_neg (other u m hut (by rw [hu]; rfl))]
        exact this
    · intro u v m hu hv
      have hu : (upd s.pc t .decide u).ticket = some m := hu
      have hv : (upd s.pc t .decide v).ticket = some m := hv
      have conv : ∀ w, (upd s.pc t .decide w).ticket = some m → (s.pc w).ticket = some m := by
        intro w hw
        unfold upd at hw
        split at hw
        · cases hw
        · exact hw
      exact h.uniq u v m (conv u hu) (conv v hv)
  · rw [hs]
    have hlt : s.taken < s.put.length := (List.getElem?_eq_some_iff.1 he).1
    have hcap := h.cap
    have nt : ∀ u m, (s.pc u).ticket = some m → s.taken + 1 ≤ m := by
      intro u m hu
      have hb := h.bound hu
      rcases Nat.lt_or_ge s.taken m with h1 | h1
      · omega
      · have : m = s.taken := by omega
        subst this
        rcases ticket_cases hu with h2 | h2
        · have := (h.count u _ h2).2.2; rw [hr] at this; cases this
        · have := (h.release u _ h2).2.2; rw [hr] at this; cases this
    have conv : ∀ w m, (upd s.pc t (taking c k e) w).ticket = some m →
        upd s.pc t (taking c k e) w = s.pc w ∧ (s.pc w).ticket = some m := by
      intro w m hw
      unfold upd at hw ⊢
      split at hw
      · rw [ticket_taking] at hw; cases hw
      · rename_i hwt; rw [if_neg hwt]; exact ⟨rfl, hw⟩
    refine ⟨hlt, ?_, ?_, h.fresh, ?_, ?_, ?_⟩
    · show s.put.length ≤ s.taken + 1 + c.capacity; omega
    · intro m hm
      have hm : m < s.taken + 1 := hm
      show s.phase m = _
      rcases Nat.lt_or_ge m s.taken with h1 | h1
      · exact h.old m h1
      · have : m = s.taken := by omega
        subst this; exact hr
    · intro u m hu
      have hu : upd s.pc t (taking c k e) u = .count m := hu
      obtain ⟨c1, c2⟩ := conv u m (by rw [hu]; rfl)
      rw [c1] at hu
      exact ⟨nt u m c2, (h.count u m hu).2⟩
    · intro u m hu
      have hu : upd s.pc t (taking c k e) u = .release m := hu
      obtain ⟨c1, c2⟩ := conv u m (by rw [hu]; rfl)
      rw [c1] at hu
      exact ⟨nt u m c2, (h.release u m hu).2⟩
    · intro u v m hu hv
      exact h.uniq u v m (conv u m hu).2 (conv v m hv).2

theorem tick_reach {c : Cfg} {o : Bool} {s : St} (h : Reach c o s) : Tick c s := by
  induction h with
  | init =>
    have : ∀ t, ((init c o).pc t).ticket = none := by
      intro t; simp only [init]; split
      · split <;> rfl
      · rfl
    refine ⟨Nat.le_refl _, by show 0 ≤ _; omega, fun n hn => absurd hn (Nat.not_lt_zero _), fun _ _ => rfl, ?_, ?_, ?_⟩
    · intro t n h; have := this t; rw [h] at this; cases this
    · intro t n h; have := this t; rw [h] at this; cases this
    · intro t u n h; rw [this t] at h; cases h
  | @next s s' hr he ih =>
    cases he with
    | step t ch => exact tick_step ih t ch
    | call t ht hi hd call =>
      refine tick_frame ih rfl rfl rfl t (by rw [hi]; rfl) ?_ ?_
      · show PC.ticket (upd _ t _ t) = none
        rw [upd, if_pos rfl]; cases call <;> rfl
      · intro u hu; show upd _ t _ u = _; rw [upd, if_neg hu]
    | destroy t ht hd hi =>
      refine tick_frame ih rfl rfl rfl t (by rw [hi t ht]; rfl) ?_ ?_
      · show PC.ticket (upd _ t _ t) = none
        rw [upd, if_pos rfl]; rfl
      · intro u hu; show upd _ t _ u = _; rw [upd, if_neg hu]


/-! ### G4: what has been taken is written or in flight -/

theorem flight_of_not_inBody {p : PC} (h : p.inBody = false) : p.flight = [] := by
  cases p <;> first | rfl | (simp [PC.inBody] at h)

theorem step_isOpen (c : Cfg) (s : St) (t : Tid) (ch : Ch) (h : s.isOpen = true) : (step c s t ch).isOpen = true := by
  unfold step
  repeat' split
  all_goals first | exact h | rfl

theorem take_snoc {α : Type} {l : List α} {n : Nat} (x : α) (h : n ≤ l.length) : (l ++ [x]).take n = l.take n := by
  rw [List.take_append_of_le_length h]

theorem take_succ_get {α : Type} {l : List α} {n : Nat} {x : α} (h : l[n]? = some x) :
    l.take (n + 1) = l.take n ++ [x] := by
  rw [List.take_add_one, h]; rfl

/-- what a step does to the part of the put order already taken, and to the history of writes -/
theorem step_flow (c : Cfg) (s : St) (t : Tid) (ch : Ch) (ho : s.isOpen = true) (hl : s.taken ≤ s.put.length) :
    ((step c s t ch).put.take (step c s t ch).taken = s.put.take s.taken ∧ (step c s t ch).written = s.written ∧
      ((step c s t ch).pc t).flight = (s.pc t).flight) ∨
    ((s.pc t).inBody = true ∧
      (s.put.take s.taken = s.written ++ (s.pc t).flight →
        (step c s t ch).put.take (step c s t ch).taken = (step c s t ch).written ++ ((step c s t ch).pc t).flight)) := by
  cases hp : s.pc t with
  | get k =>
    unfold step; simp only [hp]
    split
    · left; refine ⟨rfl, rfl, ?_⟩; show PC.flight (upd _ _ _ _) = _; rw [upd, if_pos rfl]; exact flight_nothing c k
    · rename_i e he
      split
      · right
        refine ⟨rfl, ?_⟩
        intro h
        show s.put.take (s.taken + 1) = s.written ++ PC.flight (upd s.pc t (taking c k e) t)
        rw [take_succ_get he, h, upd, if_pos rfl, flight_taking]
        simp [PC.flight]
      · left; simp [PC.flight, hp]
  | write k e =>
    cases e with
    | none => left; unfold step; simp only [hp]; simp [setPc, upd, PC.flight]
    | some e =>
      right
      refine ⟨rfl, ?_⟩
      intro h
      unfold step; simp only [hp, ho, if_true]
      simpa [setPc, upd, PC.flight] using h
  | sCall k e =>
    right
    refine ⟨rfl, ?_⟩
    intro h
    unfold step; simp only [hp]
    simpa [setPc, upd, PC.flight] using h
  | put e =>
    left; unfold step; simp only [hp]; repeat' split
    all_goals simp [setPc, upd, PC.flight, hp, take_snoc, hl]
  | enter k =>
    left; unfold step; simp only [hp]; split
    · refine ⟨rfl, rfl, ?_⟩; show PC.flight (upd _ _ _ _) = _; rw [upd, if_pos rfl]; exact flight_afterFlush k
    · simp [setPc, upd, PC.flight]
  | leave k =>
    left; unfold step; simp only [hp]
    refine ⟨rfl, rfl, ?_⟩; show PC.flight (upd _ _ _ _) = _; rw [upd, if_pos rfl]; exact flight_afterFlush k
  | _ =>
    left; unfold step; simp only [hp]; (repeat' split) <;> simp [setPc, upd, PC.flight, hp]

structure Flow (s : St) : Prop where
  isOpen : s.isOpen = true
  body : ∀ t, (s.pc t).inBody = true → s.put.take s.taken = s.written ++ (s.pc t).flight
  free : s.flag = false → s.put.take s.taken = s.written

theorem flow_step {c : Cfg} {s : St} (hx : Excl s) (ht : Tick c s) (h : Flow s) (t : Tid) (ch : Ch)
    (hx' : Excl (step c s t ch)) : Flow (step c s t ch) := by
  have hsf := step_flow c s t ch h.isOpen ht.taken
  have hother := fun u (hu : u ≠ t) => step_pc_other c s t ch u hu
  refine ⟨step_isOpen c s t ch h.isOpen, ?_, ?_⟩
  · intro u hu
    by_cases hut : u = t
    · subst hut
      rcases hsf with ⟨h1, h2, h3⟩ | ⟨h1, h2⟩
      · rw [h1, h2, h3]
        cases hb : (s.pc u).inBody with
        | true => exact h.body u hb
        | false =>
          rw [flight_of_not_inBody hb, List.append_nil]
          apply h.free
          rcases step_body c s u ch with ⟨b, _⟩ | ⟨_, b, _⟩ | ⟨b, _⟩
          · rw [hu, hb] at b; cases b
          · exact b
          · rw [hb] at b; cases b
      · exact h2 (h.body u h1)
    · rw [hother u hut] at hu ⊢
      rcases hsf with ⟨h1, h2, h3⟩ | ⟨h1, h2⟩
      · rw [h1, h2]; exact h.body u hu
      · exact absurd (hx.uniq u t hu h1) hut
  · intro hf
    have hnb : ((step c s t ch).pc t).inBody = false := by
      cases hb : ((step c s t ch).pc t).inBody with
      | false => rfl
      | true => have := hx'.flag t hb; rw [hf] at this; cases this
    rcases hsf with ⟨h1, h2, h3⟩ | ⟨h1, h2⟩
    · rw [h1, h2]
      cases hb : (s.pc t).inBody with
      | true =>
        rw [h.body t hb, ← h3, flight_of_not_inBody hnb, List.append_nil]
      | false =>
        apply h.free
        rcases step_body c s t ch with ⟨_, b⟩ | ⟨_, b, _⟩ | ⟨b, _⟩
        · rw [← b]; exact hf
        · exact b
        · rw [hb] at b; cases b
    · have := h2 (h.body t h1)
      rw [flight_of_not_inBody hnb, List.append_nil] at this
      exact this

theorem upd_not_body {s : St} {t : Tid} {p : PC} (h1 : p.inBody = false) {u : Tid}
    (hu : (upd s.pc t p u).inBody = true) : upd s.pc t p u = s.pc u := by
  unfold upd at hu ⊢
  split
  · rename_i h; rw [if_pos h, h1] at hu; cases hu
  · rfl

theorem flow_reach {c : Cfg} {s : St} (h : Reach c true s) : Flow s := by
  induction h with
  | init =>
    refine ⟨rfl, ?_, fun _ => rfl⟩
    intro t h
    have : ((init c true).pc t).inBody = false := by
      simp only [init]; split
      · split <;> rfl
      · rfl
    rw [this] at h; cases h
  | @next s s' hr he ih =>
    have hx' := excl_reach (Reach.next hr he)
    cases he with
    | step t ch => exact flow_step (excl_reach hr) (tick_reach hr) ih t ch hx'
    | call t ht hi hd call =>
      refine ⟨ih.isOpen, ?_, ih.free⟩
      intro u hu
      have := upd_not_body (s := s) (t := t) (by cases call <;> rfl) hu
      show s.put.take s.taken = s.written ++ (upd s.pc t _ u).flight
      rw [this]; exact ih.body u (by rw [← this]; exact hu)
    | destroy t ht hd hi =>
      refine ⟨ih.isOpen, ?_, ih.free⟩
      intro u hu
      have := upd_not_body (s := s) (t := t) (p := .dStart) rfl hu
      show s.put.take s.taken = s.written ++ (upd s.pc t _ u).flight
      rw [this]; exact ih.body u (by rw [← this]; exact hu)

/-! ### the program points of the classes -/

/-- points of the loop body of the console and file sinks, and of the syslog sink -/
def PC.fits (c : Cfg) : PC → Prop
  | .sCall _ _ | .sUncount _ _ | .sUnref _ _ | .sClear _ => c.isSyslog = true
  | .uncount _ _ | .unref _ _ | .write _ _ | .casFlush _ | .sync _ | .casRotate _ | .reopen _ => c.isSyslog = false
  | _ => True

theorem fits_taking (c : Cfg) (k : Ret) (e : Event) : (taking c k e).fits c := by
  unfold taking; split
  · assumption
  · rename_i h; simpa [PC.fits] using h
theorem fits_nothing (c : Cfg) (k : Ret) : (nothing c k).fits c := by
  unfold nothing; split
  · assumption
  · rename_i h; simpa [PC.fits] using h
theorem fits_afterFlush (c : Cfg) (k : Ret) : (afterFlush k).fits c := by cases k <;> trivial

theorem step_fits (c : Cfg) (s : St) (t : Tid) (ch : Ch) (h : (s.pc t).fits c) : ((step c s t ch).pc t).fits c := by
  cases hp : s.pc t with
  | get k =>
    unfold step; simp only [hp]; split
    · show PC.fits c (upd _ _ _ _); rw [upd, if_pos rfl]; exact fits_nothing c k
    · split
      · show PC.fits c (upd _ _ _ _); rw [upd, if_pos rfl]; exact fits_taking c k _
      · exact h
  | enter k =>
    unfold step; simp only [hp]; split
    · show PC.fits c (upd _ _ _ _); rw [upd, if_pos rfl]; exact fits_afterFlush c k
    · simp [setPc, upd, PC.fits]
  | leave k =>
    unfold step; simp only [hp]; show PC.fits c (upd _ _ _ _); rw [upd, if_pos rfl]; exact fits_afterFlush c k
  | write k e =>
    rw [hp] at h
    cases e with
    | none => unfold step; simp only [hp]; simpa [setPc, upd, PC.fits] using h
    | some e => unfold step; simp only [hp]; split <;> simpa [setPc, upd, PC.fits] using h
  | _ =>
    rw [hp] at h
    unfold step; simp only [hp]; (repeat' split) <;> simpa [setPc, upd, PC.fits, hp] using h

theorem fits_reach {c : Cfg} {o : Bool} {s : St} (h : Reach c o s) : ∀ t, (s.pc t).fits c := by
  induction h with
  | init => intro t; simp only [init]; split
            · split <;> trivial
            · trivial
  | @next s s' hr he ih =>
    intro u
    cases he with
    | step t ch =>
      by_cases hu : u = t
      · subst hu; exact step_fits c s u ch (ih u)
      · rw [step_pc_other c s t ch u hu]; exact ih u
    | call t ht hi hd call =>
      show PC.fits c (upd _ _ _ _)
      unfold upd; split
      · cases call <;> trivial
      · exact ih u
    | destroy t ht hd hi =>
      show PC.fits c (upd _ _ _ _)
      unfold upd; split
      · trivial
      · exact ih u

/-! ### G6: streams and file generations -/

/-- the bytes of one record as they go to the stream; syslog has no stream -/
def Cfg.bytes (c : Cfg) (e : Event) : Text := if c.isSyslog then [] else c.render e

/-- the bytes of some records -/
def bytesOf (c : Cfg) (es : List Event) : Text := es.flatMap c.bytes

structure Streams (c : Cfg) (s : St) (parts : List (List Event)) (last : List Event) : Prop where
  written : s.written = parts.flatten ++ last
  gens : s.gens = parts.map (bytesOf c)
  cur : s.dev ++ s.sbuf = bytesOf c last

theorem bytesOf_append (c : Cfg) (a b : List Event) : bytesOf c (a ++ b) = bytesOf c a ++ bytesOf c b :=
  List.flatMap_append

/-- what a step does to the streams -/
theorem step_streams (c : Cfg) (s : St) (t : Tid) (ch : Ch) (hfit : (s.pc t).fits c) :
    ((step c s t ch).written = s.written ∧ (step c s t ch).gens = s.gens ∧
      (step c s t ch).dev ++ (step c s t ch).sbuf = s.dev ++ s.sbuf) ∨
    (∃ e, (step c s t ch).written = s.written ++ [e] ∧ (step c s t ch).gens = s.gens ∧
      (step c s t ch).dev ++ (step c s t ch).sbuf = s.dev ++ s.sbuf ++ c.bytes e) ∨
    ((step c s t ch).written = s.written ∧ (step c s t ch).gens = s.gens ++ [s.dev ++ s.sbuf] ∧
      (step c s t ch).dev = [] ∧ (step c s t ch).sbuf = []) := by
  cases hp : s.pc t with
  | write k e =>
    rw [hp] at hfit
    have hfit : c.isSyslog = false := hfit
    cases e with
    | none => left; unfold step; simp only [hp]; simp [setPc]
    | some e =>
      unfold step; simp only [hp]; split
      · right; left; refine ⟨e, rfl, rfl, ?_⟩
        have hb : c.bytes e = c.render e := by unfold Cfg.bytes; rw [if_neg (by rw [‹c.isSyslog = false›]; simp)]
        rw [hb]
        simp only [setPc, List.append_assoc]
        rw [List.take_append_drop]
      · left; simp [setPc]
  | sCall k e =>
    rw [hp] at hfit
    have hfit : c.isSyslog = true := hfit
    unfold step; simp only [hp]
    right; left; refine ⟨e, rfl, rfl, ?_⟩
    simp [setPc, Cfg.bytes, hfit]
  | reopen k =>
    unfold step; simp only [hp]; split
    · right; right; simp [setPc]
    · left; simp [setPc]
  | _ => left; unfold step; simp only [hp]; (repeat' split) <;> simp [setPc]

theorem streams_step {c : Cfg} {s : St} {parts : List (List Event)} {last : List Event}
    (h : Streams c s parts last) (t : Tid) (ch : Ch) (hfit : (s.pc t).fits c) :
    ∃ parts' last', Streams c (step c s t ch) parts' last' := by
  rcases step_streams c s t ch hfit with ⟨h1, h2, h3⟩ | ⟨e, h1, h2, h3⟩ | ⟨h1, h2, h3, h4⟩
  · exact ⟨parts, last, by rw [h1]; exact h.written, by rw [h2]; exact h.gens, by rw [h3]; exact h.cur⟩
  · refine ⟨parts, last ++ [e], ?_, by rw [h2]; exact h.gens, ?_⟩
    · rw [h1, h.written, List.append_assoc]
    · rw [h3, h.cur, bytesOf_append]; simp [bytesOf]
  · refine ⟨parts ++ [last], [], ?_, ?_, ?_⟩
    · rw [h1, h.written]; simp
    · rw [h2, h.gens, h.cur]; simp
    · rw [h3, h4]; rfl

theorem streams_reach {c : Cfg} {o : Bool} {s : St} (h : Reach c o s) : ∃ parts last, Streams c s parts last := by
  induction h with
  | init => exact ⟨[], [], rfl, rfl, rfl⟩
  | @next s s' hr he ih =>
    obtain ⟨parts, last, ih⟩ := ih
    cases he with
    | step t ch => exact streams_step ih t ch (fits_reach hr t)
    | call t ht hi hd call => exact ⟨parts, last, ih.written, ih.gens, ih.cur⟩
    | destroy t ht hd hi => exact ⟨parts, last, ih.written, ih.gens, ih.cur⟩

theorem bytesOf_render {c : Cfg} (h : c.isSyslog = false) (es : List Event) : bytesOf c es = es.flatMap c.render := by
  unfold bytesOf
  have : c.bytes = c.render := by funext e; simp [Cfg.bytes, h]
  rw [this]

/-! ### the calls of `syslog()` -/

theorem step_calls (c : Cfg) (s : St) (t : Tid) (ch : Ch) (hfit : (s.pc t).fits c) :
    ((step c s t ch).calls = s.calls ∧ (c.isSyslog = true → (step c s t ch).written = s.written)) ∨
    (∃ k e, s.pc t = .sCall k e ∧ (step c s t ch).calls = s.calls ++ sysCalls c s.run e ∧
      (step c s t ch).written = s.written ++ [e]) := by
  cases hp : s.pc t with
  | sCall k e => right; exact ⟨k, e, rfl, by unfold step; simp only [hp]; rfl, by unfold step; simp only [hp]; rfl⟩
  | write k e =>
    left
    rw [hp] at hfit
    have hfit : c.isSyslog = false := hfit
    rw [hfit]
    refine ⟨?_, fun h => (by cases h)⟩
    cases e <;> (unfold step; simp only [hp]; (try split) <;> rfl)
  | _ => left; unfold step; simp only [hp]; (repeat' split) <;> simp [setPc]

/-- one call per processed event that has a priority, in order -/
theorem calls_reach {c : Cfg} {o : Bool} {s : St} (h : Reach c o s) (hs : c.isSyslog = true) :
    s.calls.map (·.1) = s.written.filterMap (fun e => Sink.priority e.level) := by
  induction h with
  | init => rfl
  | @next s s' hr he ih =>
    cases he with
    | step t ch =>
      rcases step_calls c s t ch (fits_reach hr t) with ⟨h1, h2⟩ | ⟨k, e, hp, h1, h2⟩
      · rw [h1, h2 hs]; exact ih
      · rw [h1, h2, List.map_append, List.filterMap_append, ih]
        congr 1
        unfold sysCalls
        cases hq : Sink.priority e.level <;> simp [hq]
    | call t ht hi hd call => exact ih
    | destroy t ht hd hi => exact ih

/-! ### G5: the account of buffered bytes -/

open Sink (word addSize subSize)

/-- total length of the accounted messages among elements at positions `start, start+1, …` -/
def acc (phase : Nat → Phase) : Nat → List Event → Nat
  | _, [] => 0
  | start, e :: es => (if phase start = .made then 0 else e.message.length) + acc phase (start + 1) es

theorem acc_append (phase : Nat → Phase) (start : Nat) (a b : List Event) :
    acc phase start (a ++ b) = acc phase start a + acc phase (start + a.length) b := by
  induction a generalizing start with
  | nil => simp [acc]
  | cons e es ih =>
    simp only [List.cons_append, acc, ih, List.length_cons, Nat.add_assoc]
    rw [Nat.add_comm 1 es.length]

theorem acc_congr {p q : Nat → Phase} (start : Nat) (l : List Event)
    (h : ∀ i, i < l.length → (p (start + i) = .made ↔ q (start + i) = .made)) : acc p start l = acc q start l := by
  induction l generalizing start with
  | nil => rfl
  | cons e es ih =>
    have h0 := h 0 (by simp)
    simp only [Nat.add_zero] at h0
    rw [acc, acc, ih (start + 1)]
    · congr 1
      by_cases hp : p start = .made
      · rw [if_pos hp, if_pos (h0.1 hp)]
      · rw [if_neg hp, if_neg (fun hq => hp (h0.2 hq))]
    · intro i hi
      have := h (i + 1) (by simp; omega)
      rw [show start + 1 + i = start + (i + 1) by omega]; exact this

theorem acc_count {p : Nat → Phase} (start : Nat) (l : List Event) (i : Nat) (e : Event) (he : l[i]? = some e)
    (hp : p (start + i) = .made) (q : Phase) (hq : q ≠ .made) :
    acc (upd p (start + i) q) start l = acc p start l + e.message.length := by
  induction l generalizing start i with
  | nil => simp at he
  | cons x xs ih =>
    cases i with
    | zero =>
      simp at he; subst he
      simp only [Nat.add_zero] at hp ⊢
      have : acc (upd p start q) (start + 1) xs = acc p (start + 1) xs := by
        apply acc_congr
        intro j _
        rw [upd, if_neg (by omega)]
      rw [acc, acc, this, upd, if_pos rfl, if_neg hq, if_pos hp]; omega
    | succ i =>
      have := ih (start + 1) i (by simpa using he) (by rw [show start + 1 + i = start + (i + 1) by omega]; exact hp)
      rw [show start + 1 + i = start + (i + 1) by omega] at this
      have hne : upd p (start + (i + 1)) q start = p start := by rw [upd, if_neg (by omega)]
      rw [acc, acc, this, hne]; omega

theorem acc_le (p : Nat → Phase) (start : Nat) (l : List Event) (m : Nat) (h : ∀ e ∈ l, e.message.length ≤ m) :
    acc p start l ≤ l.length * m := by
  induction l generalizing start with
  | nil => simp [acc]
  | cons e es ih =>
    have h1 := ih (start + 1) (fun x hx => h x (List.mem_cons_of_mem _ hx))
    have h2 := h e List.mem_cons_self
    rw [acc, List.length_cons, Nat.succ_mul]
    split <;> omega

/-- accounted bytes of the queued elements -/
def St.account (s : St) : Nat := acc s.phase s.taken (s.put.drop s.taken)

def PC.pending : PC → Nat
  | .uncount _ e => e.message.length
  | .sCall _ e => e.message.length
  | .sUncount _ e => e.message.length
  | _ => 0

theorem pending_of_not_inBody {p : PC} (h : p.inBody = false) : p.pending = 0 := by
  cases p <;> first | rfl | (simp [PC.inBody] at h)

theorem pending_taking (c : Cfg) (k : Ret) (e : Event) : (taking c k e).pending = e.message.length := by
  unfold taking; split <;> rfl
theorem pending_nothing (c : Cfg) (k : Ret) : (nothing c k).pending = 0 := by unfold nothing; split <;> rfl
theorem pending_afterFlush (k : Ret) : (afterFlush k).pending = 0 := by cases k <;> rfl

theorem addSize_mod (a b : Nat) : addSize (a % word) b = (a + b) % word := by
  unfold addSize; rw [Nat.mod_add_mod]

theorem subSize_mod (a b : Nat) (h : b ≤ a) : subSize (a % word) b = (a - b) % word := by
  have hw : 0 < word := by decide +kernel
  unfold subSize
  rw [Nat.mod_add_mod]
  have hb : b % word < word := Nat.mod_lt _ hw
  have hb' := Nat.div_add_mod b word
  have : a + (word - b % word) = (a - b) + word * (b / word + 1) := by
    rw [Nat.mul_add, Nat.mul_one]
    generalize hx : word * (b / word) = x at *
    omega
  rw [this, Nat.add_mul_mod_self_left]

/-- a step keeps the account in balance; `x` is what the others have taken but not yet subtracted -/
theorem step_size (c : Cfg) (s : St) (t : Tid) (ch : Ch) (ht : Tick c s) (x : Nat)
    (h : s.size = (s.account + (s.pc t).pending + x) % word) :
    (step c s t ch).size = ((step c s t ch).account + ((step c s t ch).pc t).pending + x) % word := by
  cases hp : s.pc t with
  | put e =>
    rw [hp] at h
    unfold step; simp only [hp]; repeat' split
    · simpa [setPc, upd, PC.pending, St.account] using h
    · simpa [PC.pending, hp] using h
    · have hd : (s.put ++ [e]).drop s.taken = s.put.drop s.taken ++ [e] :=
        List.drop_append_of_le_length ht.taken
      have hf := ht.fresh s.put.length (Nat.le_refl _)
      have hl : s.taken + (s.put.drop s.taken).length = s.put.length := by
        rw [List.length_drop]; have := ht.taken; omega
      have ha : acc s.phase s.taken ((s.put ++ [e]).drop s.taken) = s.account := by
        rw [hd, acc_append, hl]; simp [acc, hf, St.account]
      show s.size = (acc s.phase s.taken ((s.put ++ [e]).drop s.taken) + PC.pending (upd s.pc t (.count s.put.length) t) + x) % word
      rw [ha, upd, if_pos rfl]; exact h
  | count n =>
    obtain ⟨b1, b2, b3⟩ := ht.count t n hp
    rw [hp] at h
    unfold step; simp only [hp]
    have hn : s.put[n]? = some s.put[n] := List.getElem?_eq_getElem b2
    have hi : (s.put.drop s.taken)[n - s.taken]? = some s.put[n] := by
      rw [List.getElem?_drop, show s.taken + (n - s.taken) = n by omega]; exact hn
    have := acc_count (p := s.phase) s.taken (s.put.drop s.taken) (n - s.taken) _ hi
      (by rw [show s.taken + (n - s.taken) = n by omega]; exact b3) .counted (by simp)
    rw [show s.taken + (n - s.taken) = n by omega] at this
    show addSize s.size _ = (acc (upd s.phase n .counted) s.taken (s.put.drop s.taken) + PC.pending (upd s.pc t (.release n) t) + x) % word
    rw [this, upd, if_pos rfl, h, addSize_mod, List.getD_eq_getElem?_getD, hn]
    simp only [Option.getD_some, PC.pending, St.account]
    congr 1; omega
  | release n =>
    obtain ⟨b1, b2, b3⟩ := ht.release t n hp
    rw [hp] at h
    unfold step; simp only [hp]
    have : acc (upd s.phase n .ready) s.taken (s.put.drop s.taken) = s.account := by
      apply acc_congr
      intro i _
      by_cases hi : s.taken + i = n
      · rw [hi, upd, if_pos rfl, b3]; simp
      · rw [upd, if_neg hi]
    show s.size = (acc (upd s.phase n .ready) s.taken (s.put.drop s.taken) + PC.pending (upd s.pc t .decide t) + x) % word
    rw [this, upd, if_pos rfl]; exact h
  | get k =>
    rw [hp] at h
    unfold step; simp only [hp]
    split
    · show s.size = (s.account + PC.pending (upd s.pc t _ t) + x) % word
      rw [upd, if_pos rfl, pending_nothing]; exact h
    · rename_i e he
      split
      · rename_i hr
        have hd : s.put.drop s.taken = e :: s.put.drop (s.taken + 1) := by
          obtain ⟨hlt, heq⟩ := List.getElem?_eq_some_iff.1 he
          rw [List.drop_eq_getElem_cons hlt, heq]
        have : s.account = e.message.length + acc s.phase (s.taken + 1) (s.put.drop (s.taken + 1)) := by
          unfold St.account; rw [hd, acc, hr]; simp
        show s.size = (acc s.phase (s.taken + 1) (s.put.drop (s.taken + 1)) + PC.pending (upd s.pc t (taking c k e) t) + x) % word
        rw [h, this, upd, if_pos rfl, pending_taking]; simp only [PC.pending]; congr 1; omega
      · simpa [PC.pending, hp] using h
  | uncount k e =>
    rw [hp] at h
    unfold step; simp only [hp]
    show subSize s.size e.message.length = (s.account + PC.pending (upd s.pc t (.unref k e) t) + x) % word
    rw [h, upd, if_pos rfl]
    simp only [PC.pending]
    rw [subSize_mod _ _ (by omega)]
    congr 1; omega
  | sUncount k e =>
    rw [hp] at h
    unfold step; simp only [hp]
    show subSize s.size e.message.length = (s.account + PC.pending (upd s.pc t (.sUnref k e) t) + x) % word
    rw [h, upd, if_pos rfl]
    simp only [PC.pending]
    rw [subSize_mod _ _ (by omega)]
    congr 1; omega
  | enter k =>
    rw [hp] at h
    unfold step; simp only [hp]; split
    · show s.size = (s.account + PC.pending (upd s.pc t _ t) + x) % word
      rw [upd, if_pos rfl, pending_afterFlush]; exact h
    · simpa [setPc, upd, PC.pending, St.account] using h
  | leave k =>
    rw [hp] at h
    unfold step; simp only [hp]
    show s.size = (s.account + PC.pending (upd s.pc t _ t) + x) % word
    rw [upd, if_pos rfl, pending_afterFlush]; exact h
  | write k e =>
    rw [hp] at h
    cases e with
    | none => unfold step; simp only [hp]; simpa [setPc, upd, PC.pending, St.account] using h
    | some e => unfold step; simp only [hp]; split <;> simpa [setPc, upd, PC.pending, St.account] using h
  | _ =>
    rw [hp] at h
    unfold step; simp only [hp]; (repeat' split) <;> simpa [setPc, upd, PC.pending, St.account, hp] using h

structure Size (s : St) : Prop where
  body : ∀ t, (s.pc t).inBody = true → s.size = (s.account + (s.pc t).pending) % word
  free : s.flag = false → s.size = s.account % word

theorem size_step {c : Cfg} {s : St} (hx : Excl s) (ht : Tick c s) (h : Size s) (t : Tid) (ch : Ch)
    (hx' : Excl (step c s t ch)) : Size (step c s t ch) := by
  have hother := fun u (hu : u ≠ t) => step_pc_other c s t ch u hu
  -- balance around the stepping thread
  have key : (s.pc t).inBody = true ∨ s.flag = false →
      (step c s t ch).size = ((step c s t ch).account + ((step c s t ch).pc t).pending) % word := by
    intro hc
    have := step_size c s t ch ht 0 (by
      rcases hc with hb | hf
      · exact h.body t hb
      · have hnb : (s.pc t).inBody = false := by
          cases hb : (s.pc t).inBody with
          | false => rfl
          | true => have := hx.flag t hb; rw [hf] at this; cases this
        rw [pending_of_not_inBody hnb]; exact h.free hf)
    exact this
  have key2 : ∀ u, u ≠ t → (s.pc u).inBody = true →
      (step c s t ch).size = ((step c s t ch).account + (s.pc u).pending) % word := by
    intro u hu hb
    have hnb : (s.pc t).inBody = false := by
      cases hb' : (s.pc t).inBody with
      | false => rfl
      | true => exact absurd (hx.uniq u t hb hb') hu
    have hnb' : ((step c s t ch).pc t).inBody = false := by
      cases hb' : ((step c s t ch).pc t).inBody with
      | false => rfl
      | true => exact absurd (hx'.uniq u t (by rw [hother u hu]; exact hb) hb') hu
    have := step_size c s t ch ht (s.pc u).pending (by
      rw [pending_of_not_inBody hnb, Nat.add_zero]; exact h.body u hb)
    rw [pending_of_not_inBody hnb', Nat.add_zero] at this
    exact this
  refine ⟨?_, ?_⟩
  · intro u hu
    by_cases hut : u = t
    · subst hut
      apply key
      rcases step_body c s u ch with ⟨b, _⟩ | ⟨_, b, _⟩ | ⟨b, _⟩
      · left; rw [← b]; exact hu
      · right; exact b
      · left; exact b
    · rw [hother u hut] at hu ⊢
      exact key2 u hut hu
  · intro hf
    have hnb : ((step c s t ch).pc t).inBody = false := by
      cases hb : ((step c s t ch).pc t).inBody with
      | false => rfl
      | true => have := hx'.flag t hb; rw [hf] at this; cases this
    have := key (by
      rcases step_body c s t ch with ⟨_, b⟩ | ⟨_, b, _⟩ | ⟨b, _⟩
      · right; rw [← b]; exact hf
      · right; exact b
      · left; exact b)
    rw [pending_of_not_inBody hnb] at this
    exact this

theorem size_reach {c : Cfg} {o : Bool} {s : St} (h : Reach c o s) : Size s := by
  induction h with
  | init =>
    refine ⟨?_, fun _ => rfl⟩
    intro t h
    have : ((init c o).pc t).inBody = false := by
      simp only [init]; split
      · split <;> rfl
      · rfl
    rw [this] at h; cases h
  | @next s s' hr he ih =>
    have hx' := excl_reach (Reach.next hr he)
    cases he with
    | step t ch => exact size_step (excl_reach hr) (tick_reach hr) ih t ch hx'
    | call t ht hi hd call =>
      refine ⟨?_, ih.free⟩
      intro u hu
      have := upd_not_body (s := s) (t := t) (by cases call <;> rfl) hu
      show s.size = (s.account + (upd s.pc t _ u).pending) % word
      rw [this]; exact ih.body u (by rw [← this]; exact hu)
    | destroy t ht hd hi =>
      refine ⟨?_, ih.free⟩
      intro u hu
      have := upd_not_body (s := s) (t := t) (p := .dStart) rfl hu
      show s.size = (s.account + (upd s.pc t _ u).pending) % word
      rw [this]; exact ih.body u (by rw [← this]; exact hu)

/-! ### G7: end of the worker, destructor -/

/-- the destructor, after the request to finish -/
def PC.finishing (p : PC) : Prop := p = .dAsync ∨ p = .dJoin ∨ p = .dEnd ∨ p = .dead

structure Final (c : Cfg) (o : Bool) (s : St) : Prop where
  /-- the request to finish is made by the destructor only -/
  fin : s.needFinalize = true → ∃ d, s.owner = some d
  checked : s.pc workerTid = .wSize → s.needFinalize = true
  exit : s.pc workerTid = .wExit → c.latency0 = true ∨ o = false ∨ (s.needFinalize = true ∧ s.taken = s.put.length)
  lat0 : c.latency0 = true → s.pc workerTid = .wExit
  own : ∀ d, s.owner = some d → c.latency0 = false → s.pc d = .dStart ∨ (s.needFinalize = true ∧ (s.pc d).finishing)
  ended : ∀ d, s.owner = some d → c.latency0 = false → s.pc d = .dEnd ∨ s.pc d = .dead → s.pc workerTid = .wExit
  closed : ∀ d, s.owner = some d → s.pc d = .dead → c.isFile = true → s.sbuf = []

theorem step_fin (c : Cfg) (s : St) (t : Tid) (ch : Ch) :
    (step c s t ch).needFinalize = s.needFinalize ∨ (s.pc t = .dStart ∧ (step c s t ch).needFinalize = true) := by
  cases hp : s.pc t with
  | dStart => unfold step; simp only [hp]; split <;> simp [setPc]
  | write k e => left; cases e <;> (unfold step; simp only [hp]; (try split) <;> simp [setPc])
  | _ => left; unfold step; simp only [hp] <;> (repeat' split) <;> simp [setPc]

theorem step_fin_mono (c : Cfg) (s : St) (t : Tid) (ch : Ch) (h : s.needFinalize = true) :
    (step c s t ch).needFinalize = true := by
  rcases step_fin c s t ch with h' | ⟨_, h'⟩
  · rw [h', h]
  · exact h'

theorem step_to_wSize (c : Cfg) (s : St) (t : Tid) (ch : Ch) (h : (step c s t ch).pc t = .wSize) :
    s.needFinalize = true := by
  cases hp : s.pc t with
  | wCheck =>
    unfold step at h; simp only [hp] at h; split at h
    · rename_i hx; exact (Bool.and_eq_true_iff.1 hx).1
    · simp [setPc, upd] at h
  | enter k =>
    unfold step at h; simp only [hp] at h; split at h
    · cases k <;> simp [setPc, upd, afterFlush] at h
    · simp [setPc, upd] at h
  | leave k => unfold step at h; simp only [hp] at h; cases k <;> simp [setPc, upd, afterFlush] at h
  | get k =>
    exfalso; unfold step at h; simp only [hp] at h; (repeat' split at h) <;> simp [setPc, upd, hp, nothing, taking] at h <;>
      split at h <;> cases h
  | write k e => exfalso; cases e <;> (unfold step at h; simp only [hp] at h; (try split at h) <;> simp [setPc, upd] at h)
  | _ => exfalso; unfold step at h; simp only [hp] at h; (repeat' split at h) <;> simp [setPc, upd, hp] at h

theorem step_to_wExit (c : Cfg) (s : St) (t : Tid) (ch : Ch) (h : (step c s t ch).pc t = .wExit) :
    s.pc t = .wExit ∨ (s.pc t = .wSize ∧ s.queued = 0 ∧ (step c s t ch).put = s.put ∧ (step c s t ch).taken = s.taken) := by
  cases hp : s.pc t with
  | wExit => exact Or.inl rfl
  | wSize =>
    unfold step at h ⊢; simp only [hp] at h ⊢; split at h
    · rename_i hq; rw [if_pos hq]; exact Or.inr ⟨trivial, hq, rfl, rfl⟩
    · simp [setPc, upd] at h
  | enter k =>
    unfold step at h; simp only [hp] at h; split at h
    · cases k <;> simp [setPc, upd, afterFlush] at h
    · simp [setPc, upd] at h
  | leave k => unfold step at h; simp only [hp] at h; cases k <;> simp [setPc, upd, afterFlush] at h
  | get k =>
    exfalso; unfold step at h; simp only [hp] at h; (repeat' split at h) <;> simp [setPc, upd, hp, nothing, taking] at h <;>
      split at h <;> cases h
  | write k e => exfalso; cases e <;> (unfold step at h; simp only [hp] at h; (try split at h) <;> simp [setPc, upd] at h)
  | _ => exfalso; unfold step at h; simp only [hp] at h; (repeat' split at h) <;> simp [setPc, upd, hp] at h

/-- the destructor's own steps -/
theorem step_finishing (c : Cfg) (s : St) (t : Tid) (ch : Ch) (h : (s.pc t).finishing) :
    ((step c s t ch).pc t).finishing := by
  rcases h with h | h | h | h <;> (unfold step; simp only [h]; (repeat' split) <;> simp [setPc, upd, PC.finishing, h])

theorem step_dStart (c : Cfg) (s : St) (t : Tid) (ch : Ch) (h : s.pc t = .dStart) (hl : c.latency0 = false) :
    (step c s t ch).pc t = .dAsync ∧ (step c s t ch).needFinalize = true := by
  unfold step; simp only [h, hl]; simp [setPc, upd]

/-- nobody but the stepping thread of a `.dEnd` empties or fills the stream buffer once everybody else is out -/
theorem step_sbuf (c : Cfg) (s : St) (t : Tid) (ch : Ch) (h : (s.pc t).inBody = false) :
    (step c s t ch).sbuf = s.sbuf ∨ (step c s t ch).sbuf = [] := by
  cases hp : s.pc t with
  | write k e => rw [hp] at h; cases h
  | _ => unfold step; simp only [hp]; (repeat' split) <;> simp [setPc]

theorem step_to_dead (c : Cfg) (s : St) (t : Tid) (ch : Ch) (h : (step c s t ch).pc t = .dead) (hf : c.isFile = true) :
    s.pc t = .dead ∨ (step c s t ch).sbuf = [] := by
  cases hp : s.pc t with
  | dead => exact Or.inl rfl
  | dEnd => right; unfold step; simp only [hp, hf]; simp [setPc]
  | enter k =>
    unfold step at h; simp only [hp] at h; split at h
    · cases k <;> simp [setPc, upd, afterFlush] at h
    · simp [setPc, upd] at h
  | leave k => unfold step at h; simp only [hp] at h; cases k <;> simp [setPc, upd, afterFlush] at h
  | get k =>
    exfalso; unfold step at h; simp only [hp] at h; (repeat' split at h) <;> simp [setPc, upd, hp, nothing, taking] at h <;>
      split at h <;> cases h
  | write k e => exfalso; cases e <;> (unfold step at h; simp only [hp] at h; (try split at h) <;> simp [setPc, upd] at h)
  | _ => exfalso; unfold step at h; simp only [hp] at h; (repeat' split at h) <;> simp [setPc, upd, hp] at h

/-- who reaches the end of the destructor -/
theorem step_to_dEnd (c : Cfg) (s : St) (t : Tid) (ch : Ch) (hl : (s.pc t).finishing)
    (h : (step c s t ch).pc t = .dEnd ∨ (step c s t ch).pc t = .dead) :
    s.pc t = .dEnd ∨ s.pc t = .dead ∨ s.pc workerTid = .wExit := by
  rcases hl with hp | hp | hp | hp
  · unfold step at h; simp only [hp] at h; simp [setPc, upd] at h
  · unfold step at h; simp only [hp] at h; split at h
    · rename_i hw; exact Or.inr (Or.inr hw)
    · simp [hp] at h
  · exact Or.inl hp
  · exact Or.inr (Or.inl hp)

theorem role_wExit_step (c : Cfg) (s : St) (t : Tid) (ch : Ch) (h : s.pc t = .wExit) : step c s t ch = s := by
  unfold step; simp only [h]

theorem final_step {c : Cfg} {o : Bool} {s : St} (hr : Roles s) (ht : Tick c s) (h : Final c o s) (t : Tid)
    (ch : Ch) : Final c o (step c s t ch) := by
  have hother := fun u (hu : u ≠ t) => step_pc_other c s t ch u hu
  have hexit : s.pc workerTid = .wExit → (step c s t ch).pc workerTid = .wExit := by
    intro hw
    by_cases htw : workerTid = t
    · subst htw; rw [role_wExit_step c s _ ch hw]; exact hw
    · rw [hother _ htw]; exact hw
  refine ⟨?_, ?_, ?_, fun hl => hexit (h.lat0 hl), ?_, ?_, ?_⟩
  · intro hf
    rw [step_owner]
    rcases step_fin c s t ch with h' | ⟨h1, _⟩
    · rw [h'] at hf; exact h.fin hf
    · cases hown : s.owner with
      | some d => exact ⟨d, rfl⟩
      | none =>
        exfalso
        by_cases htw : t = workerTid
        · have := hr.worker; rw [← htw, h1] at this; cases this
        · have := hr.clients hown t htw; rw [h1] at this; cases this
  · intro hw
    apply step_fin_mono
    by_cases htw : workerTid = t
    · subst htw; exact step_to_wSize c s _ ch hw
    · rw [hother _ htw] at hw; exact h.checked hw
  · intro hw
    have stay : s.pc workerTid = .wExit → c.latency0 = true ∨ o = false ∨
        ((step c s t ch).needFinalize = true ∧ (step c s t ch).taken = (step c s t ch).put.length) := by
      intro hw0
      rcases h.exit hw0 with h1 | h1 | ⟨h1, h2⟩
      · exact Or.inl h1
      · exact Or.inr (Or.inl h1)
      · refine Or.inr (Or.inr ⟨step_fin_mono c s t ch h1, ?_⟩)
        obtain ⟨d, hd⟩ := h.fin h1
        obtain ⟨o1, o2, o3⟩ := hr.owner d hd
        rcases step_queue c s t ch with ⟨q1, q2, _⟩ | ⟨e, hp, _⟩ | ⟨n, hp, hs⟩ | ⟨n, hp, hs⟩ | ⟨k, e, hp, he, _⟩
        · rw [q1, q2]; exact h2
        · exfalso
          by_cases htw : t = workerTid
          · have := hr.worker; rw [← htw, hp] at this; cases this
          · by_cases htd : t = d
            · subst htd; rw [hp] at o2; cases o2
            · have := o3 t htw htd; rw [hp] at this; cases this
        · rw [hs]; exact h2
        · rw [hs]; exact h2
        · rw [h2] at he; simp at he
    by_cases htw : workerTid = t
    · subst htw
      rcases step_to_wExit c s _ ch hw with h1 | ⟨h1, h2, h3, h4⟩
      · exact stay h1
      · refine Or.inr (Or.inr ⟨step_fin_mono c s _ ch (h.checked h1), ?_⟩)
        rw [h3, h4]
        have := ht.taken
        unfold St.queued at h2
        omega
    · rw [hother _ htw] at hw; exact stay hw
  · intro d hd hl
    rw [step_owner] at hd
    by_cases htd : d = t
    · subst htd
      rcases h.own d hd hl with h1 | ⟨h1, h2⟩
      · have := step_dStart c s d ch h1 hl
        exact Or.inr ⟨this.2, Or.inl this.1⟩
      · exact Or.inr ⟨step_fin_mono c s d ch h1, step_finishing c s d ch h2⟩
    · rw [hother _ htd]
      rcases h.own d hd hl with h1 | ⟨h1, h2⟩
      · exact Or.inl h1
      · exact Or.inr ⟨step_fin_mono c s t ch h1, h2⟩
  · intro d hd hl hp
    rw [step_owner] at hd
    apply hexit
    by_cases htd : d = t
    · subst htd
      rcases h.own d hd hl with h1 | ⟨h1, h2⟩
      · have := (step_dStart c s d ch h1 hl).1; rw [this] at hp; rcases hp with hp | hp <;> cases hp
      · rcases step_to_dEnd c s d ch h2 hp with h3 | h3 | h3
        · exact h.ended d hd hl (Or.inl h3)
        · exact h.ended d hd hl (Or.inr h3)
        · exact h3
    · rw [hother _ htd] at hp; exact h.ended d hd hl hp
  · intro d hd hp hf
    rw [step_owner] at hd
    obtain ⟨o1, o2, o3⟩ := hr.owner d hd
    have stay : s.pc d = .dead → (s.pc t).inBody = false → (step c s t ch).sbuf = [] := by
      intro hp hb
      rcases step_sbuf c s t ch hb with h1 | h1
      · rw [h1]; exact h.closed d hd hp hf
      · exact h1
    by_cases htd : d = t
    · subst htd
      rcases step_to_dead c s d ch hp hf with h1 | h1
      · exact stay h1 (by rw [h1]; rfl)
      · exact h1
    · rw [hother _ htd] at hp
      refine stay hp ?_
      by_cases htw : t = workerTid
      · subst htw
        have : s.pc workerTid = .wExit := by
          cases hl : c.latency0 with
          | true => exact h.lat0 hl
          | false => exact h.ended d hd hl (Or.inr hp)
        rw [this]; rfl
      · rw [o3 t htw (Ne.symm htd)]; rfl

theorem final_reach {c : Cfg} {o : Bool} {s : St} (h : Reach c o s) : Final c o s := by
  induction h with
  | init =>
    have hw : (init c o).pc workerTid = if c.latency0 || !o then .wExit else .wWait := by simp [init]
    refine ⟨fun h => (by cases h), ?_, ?_, ?_, fun d hd => (by cases hd), fun d hd => (by cases hd), fun d hd => (by cases hd)⟩
    · rw [hw]; split <;> (intro h; cases h)
    · rw [hw]; split
      · rename_i h; intro _
        cases hl : c.latency0 with
        | true => exact Or.inl rfl
        | false => rw [hl] at h; right; left; simpa using h
      · intro h; cases h
    · intro hl; rw [hw, hl]; rfl
  | @next s s' hr he ih =>
    cases he with
    | step t ch => exact final_step (roles_reach hr) (tick_reach hr) ih t ch
    | call t ht hi hd call =>
      have hw : ∀ p, upd s.pc t p workerTid = s.pc workerTid := fun p => by rw [upd, if_neg (Ne.symm ht)]
      refine ⟨ih.fin, ?_, ?_, ?_, ?_, ?_, ?_⟩
      · intro h; exact ih.checked ((hw _).symm.trans h)
      · intro h; exact ih.exit ((hw _).symm.trans h)
      · intro h; exact (hw _).trans (ih.lat0 h)
      · intro d h; have : none = some d := hd.symm.trans h; cases this
      · intro d h; have : none = some d := hd.symm.trans h; cases this
      · intro d h; have : none = some d := hd.symm.trans h; cases this
    | destroy t ht hd hi =>
      have hw : ∀ p, upd s.pc t p workerTid = s.pc workerTid := fun p => by rw [upd, if_neg (Ne.symm ht)]
      have hself : ∀ d, (some t = some d) → upd s.pc t .dStart d = .dStart := by
        intro d h; cases h; rw [upd, if_pos rfl]
      refine ⟨fun _ => ⟨t, rfl⟩, ?_, ?_, ?_, ?_, ?_, ?_⟩
      · intro h; exact ih.checked ((hw _).symm.trans h)
      · intro h; exact ih.exit ((hw _).symm.trans h)
      · intro h; exact (hw _).trans (ih.lat0 h)
      · intro d h _; exact Or.inl (hself d h)
      · intro d h _ hp
        have hp : upd s.pc t .dStart d = .dEnd ∨ upd s.pc t .dStart d = .dead := hp
        rw [hself d h] at hp; rcases hp with hp | hp <;> cases hp
      · intro d h hp
        have hp : upd s.pc t .dStart d = .dead := hp
        rw [hself d h] at hp; cases hp

end SinkConc
end Soralog
