import Verif.Model.Ring
/-! # Invariant of the ring buffer model -/
namespace Soralog
namespace Ring
open Spec (Call Ret Entry Legal Proto Phase Queue.run)

variable {T : Type}

@[simp] theorem upd_same {α β : Type} [DecidableEq α] (f : α → β) (a : α) (b : β) : upd f a b a = b := by
  simp [upd]
theorem upd_ne {α β : Type} [DecidableEq α] (f : α → β) (a x : α) (b : β) (h : x ≠ a) : upd f a b x = f x := by
  simp [upd, h]

/-- position of the `i`-th element of a window that starts at `base` -/
def w (cap base i : Nat) : Nat := if base + i < cap then base + i else base + i - cap

theorem mod_w {cap base i : Nat} (hb : base < cap) (hi : i ≤ cap) : (base + i) % cap = w cap base i := by
  unfold w
  split
  · exact Nat.mod_eq_of_lt ‹_›
  · rw [Nat.mod_eq_sub_mod (by omega)]
    exact Nat.mod_eq_of_lt (by omega)

theorem w_inj {cap base i j : Nat} (_hb : base < cap) (hi : i < cap) (hj : j < cap)
    (h : w cap base i = w cap base j) : i = j := by
  unfold w at h; split at h <;> split at h <;> omega

theorem w_lt {cap base i : Nat} (hb : base < cap) (hi : i < cap) : w cap base i < cap := by
  unfold w; split <;> omega

theorem w_shift {cap base i : Nat} (hb : base < cap) (hi : i < cap) :
    w cap (w cap base 1) i = w cap base (i + 1) := by
  unfold w; repeat' split
  all_goals omega

theorem w_zero {cap base : Nat} (hb : base < cap) : w cap base 0 = base := by
  unfold w; simp [hb]

theorem w_succ {cap base i : Nat} (hb : base < cap) (hi : i < cap) :
    (w cap base i + 1) % cap = w cap base (i + 1) := by
  have := w_lt hb hi
  rw [mod_w this (by omega)]
  unfold w; repeat' split
  all_goals omega

theorem w_one_lt {cap base : Nat} (hb : base < cap) : w cap base 1 < cap := by
  unfold w; split <;> omega

/-- inside the critical section -/
def inCS : PC T → Bool
  | .idle | .putSpin _ | .putInit _ _ | .putBuild _ _ | .getSpin | .obsSpin _ => false
  | _ => true

/-- the slot a thread has captured -/
def slotOf : PC T → Option Nat
  | .putAdvance _ k | .putCount _ k | .putUnlock _ k | .putInit _ k | .putBuild _ k
  | .getAdvance k | .getCount k | .getUnlock k _ => some k
  | _ => none

/-- an element already counted but not yet constructed -/
def building : PC T → Option (T × Nat)
  | .putUnlock v k | .putInit v k | .putBuild v k => some (v, k)
  | _ => none

def isPutCount : PC T → Bool
  | .putCount _ _ => true
  | _ => false
def isGetCount : PC T → Bool
  | .getCount _ => true
  | _ => false

/-- where the thread stands in the call protocol -/
def phase : PC T → Phase T
  | .idle => .idle
  | .putSpin v | .putCheck v | .putCapture v | .putRetry v | .putAdvance v _ | .putCount v _ => .called (.put v)
  | .putFull v => .done (.put v) .full
  | .putUnlock v _ | .putInit v _ | .putBuild v _ => .done (.put v) .stored
  | .getSpin | .getCheck | .getCapture | .getRetry | .getAdvance _ | .getCount _ => .called .get
  | .getEmpty => .done .get .empty
  | .getUnlock _ v => .done .get (.got v)
  | .obsSpin c | .obsRead c => .called c
  | .obsUnlock c n => .done c (.num n)

def isObs : Call T → Bool
  | .size | .avail | .capacity => true
  | _ => false

/-- what a program counter says about the shared state -/
def PCok (b : Buf T) (q : List T) (base : Nat) : PC T → Prop
  | .putCapture _ => b.size < b.capacity
  | .putAdvance _ k => k = w b.capacity base b.size ∧ b.size < b.capacity
  | .putCount _ k => k = w b.capacity base b.size ∧ b.size < b.capacity ∧
      b.pushIdx = w b.capacity base (b.size + 1)
  | .putUnlock v k | .putInit v k | .putBuild v k =>
      ∃ i, i < b.size ∧ k = w b.capacity base i ∧ q[i]? = some v
  | .getCapture => 0 < b.size
  | .getAdvance k => k = base ∧ 0 < b.size ∧ b.item k = q[0]?
  | .getCount k => k = base ∧ 0 < b.size ∧ b.item k = q[0]? ∧ b.popIdx = w b.capacity base 1
  | .getUnlock k v => b.item k = some v ∧ k < b.capacity ∧ ∀ i, i < b.size → k ≠ w b.capacity base i
  | .obsSpin c | .obsRead c | .obsUnlock c _ => isObs c = true
  | _ => True

structure Inv (cap : Nat) (s : St T) (q : List T) (base : Nat) : Prop where
  capEq : s.buf.capacity = cap
  ub : s.ub = false
  legal : Legal cap s.log q
  proto : ∀ t, Proto t s.log (phase (s.pc t))
  lock : s.buf.busy = true ↔ ∃ t, inCS (s.pc t) = true
  excl : ∀ t t', inCS (s.pc t) = true → inCS (s.pc t') = true → t = t'
  len : q.length = s.buf.size
  sizeLe : s.buf.size ≤ cap
  baseLt : base < cap
  popI : (∀ t, isGetCount (s.pc t) = false) → s.buf.popIdx = base
  pushI : (∀ t, isPutCount (s.pc t) = false) → s.buf.pushIdx = w cap base s.buf.size
  pcs : ∀ t, PCok s.buf q base (s.pc t)
  owned : ∀ k, s.buf.nodeBusy k = true ↔ (∃ t, slotOf (s.pc t) = some k) ∨ ∃ r ∈ s.refs, r.slot = k
  uniqT : ∀ t t' k, slotOf (s.pc t) = some k → slotOf (s.pc t') = some k → t = t'
  uniqTR : ∀ t k, slotOf (s.pc t) = some k → ∀ r ∈ s.refs, r.slot ≠ k
  uniqR : (s.refs.map Ref.slot).Nodup
  items : ∀ i, i < s.buf.size → s.buf.item (w cap base i) = q[i]? ∨
      ∃ t v, building (s.pc t) = some (v, w cap base i)
  refOk : ∀ r ∈ s.refs, s.buf.item r.slot = some r.val ∧ r.slot < cap
  refGet : ∀ r ∈ s.refs, r.fromGet = true → ∀ i, i < s.buf.size → r.slot ≠ w cap base i
  refPut : ∀ r ∈ s.refs, r.fromGet = false → ∃ i, i < s.buf.size ∧ r.slot = w cap base i ∧ q[i]? = some r.val

theorem inv_init {cap : Nat} (hc : 0 < cap) : Inv cap (init T cap) [] 0 := by
  constructor <;> simp [init, inCS, slotOf, phase, isGetCount, isPutCount, PCok, hc, w]
  · exact .nil
  · intro t; exact .nil

theorem proto_append_lin {t t' : Tid} {h : List (Entry T)} {p p' : Phase T} {c r}
    (hp : Proto t h p) (hne : t' ≠ t) (e : p' = p) : Proto t (h ++ [.lin t' c r]) p' := by
  subst e; exact .otherLin _ _ _ hne hp

theorem upd_inv {α : Type} (f : PC T → α) {pc : Tid → PC T} {t : Tid} {p' : PC T} (h : f p' = f (pc t))
    (t' : Tid) : f (upd pc t p' t') = f (pc t') := by
  by_cases e : t' = t
  · subst e; simpa using h
  · rw [upd_ne _ _ _ _ e]

/-- How a step may treat the lock. -/
def LockStep (b b' : Bool) (p p' : PC T) : Prop :=
  (b' = true ∧ inCS p' = true ∧ (b = false ∨ inCS p = true)) ∨
  (b' = false ∧ inCS p' = false ∧ inCS p = true) ∨
  (b' = b ∧ inCS p' = false ∧ inCS p = false)

theorem lock_pres {pc : Tid → PC T} {b b' : Bool} {t : Tid} {p' : PC T}
    (h5 : b = true ↔ ∃ t, inCS (pc t) = true)
    (h6 : ∀ t t', inCS (pc t) = true → inCS (pc t') = true → t = t')
    (h : LockStep b b' (pc t) p') :
    (b' = true ↔ ∃ t', inCS (upd pc t p' t') = true) ∧
    (∀ t1 t2, inCS (upd pc t p' t1) = true → inCS (upd pc t p' t2) = true → t1 = t2) := by
  have hothers : inCS p' = true → ∀ t', t' ≠ t → inCS (pc t') = false := by
    intro hc t' hne
    rcases h with ⟨_, _, h | h⟩ | ⟨_, h, _⟩ | ⟨_, h, _⟩
    · subst h
      cases e : inCS (pc t')
      · rfl
      · have := h5.2 ⟨t', e⟩; cases this
    · cases e : inCS (pc t')
      · rfl
      · exact absurd (h6 _ _ e h) hne
    · rw [h] at hc; cases hc
    · rw [h] at hc; cases hc
  constructor
  · constructor
    · intro hb
      rcases h with ⟨_, h, _⟩ | ⟨h, _⟩ | ⟨h, h', h''⟩
      · exact ⟨t, by simpa using h⟩
      · rw [h] at hb; cases hb
      · obtain ⟨t', ht'⟩ := h5.1 (by rw [← h]; exact hb)
        refine ⟨t', ?_⟩
        rw [upd_ne]
        · exact ht'
        · rintro rfl; rw [h''] at ht'; cases ht'
    · rintro ⟨t', ht'⟩
      by_cases e : t' = t
      · subst e; rw [upd_same] at ht'
        rcases h with ⟨h, _⟩ | ⟨_, h, _⟩ | ⟨_, h, _⟩
        · exact h
        · rw [h] at ht'; cases ht'
        · rw [h] at ht'; cases ht'
      · rw [upd_ne _ _ _ _ e] at ht'
        rcases h with ⟨h, _⟩ | ⟨_, h, h'⟩ | ⟨h, _⟩
        · exact h
        · exact absurd (h6 _ _ ht' h') e
        · rw [h]; exact h5.2 ⟨t', ht'⟩
  · intro t1 t2 e1 e2
    by_cases a1 : t1 = t <;> by_cases a2 : t2 = t
    · rw [a1, a2]
    · subst a1; rw [upd_same] at e1; rw [upd_ne _ _ _ _ a2, hothers e1 t2 a2] at e2; cases e2
    · subst a2; rw [upd_same] at e2; rw [upd_ne _ _ _ _ a1, hothers e2 t1 a1] at e1; cases e1
    · rw [upd_ne _ _ _ _ a1] at e1; rw [upd_ne _ _ _ _ a2] at e2; exact h6 _ _ e1 e2

/-- Steps of thread `t` that move its program counter, and perhaps take or release the lock and extend the
history, and change nothing else. -/
theorem inv_frame {cap : Nat} {s : St T} {q : List T} {base : Nat} (hI : Inv cap s q base) (t : Tid)
    (p' : PC T) (b' : Bool) (log' : List (Entry T))
    (hslot : slotOf p' = slotOf (s.pc t)) (hbld : building p' = building (s.pc t))
    (hg : isGetCount p' = isGetCount (s.pc t)) (hp : isPutCount p' = isPutCount (s.pc t))
    (hok : PCok s.buf q base p')
    (hlegal : Legal cap log' q)
    (hproto : Proto t log' (phase p'))
    (hproto' : ∀ t', t' ≠ t → Proto t' log' (phase (s.pc t')))
    (hlock : LockStep s.buf.busy b' (s.pc t) p') :
    Inv cap { s with buf := { s.buf with busy := b' }, pc := upd s.pc t p', log := log' } q base := by
  obtain ⟨h1, h2, h3, h4, h5, h6, h7, h8, h9, h10, h11, h12, h13, h14, h15, h16, h17, h18, h19, h20⟩ := hI
  have hpc : ∀ p, PCok s.buf q base p → PCok { s.buf with busy := b' } q base p := by
    intro p h; cases p <;> exact h
  have es := upd_inv slotOf hslot
  have eb := upd_inv building hbld
  have eg := upd_inv isGetCount hg
  have ep := upd_inv isPutCount hp
  obtain ⟨l1, l2⟩ := lock_pres h5 h6 hlock
  constructor <;> (try dsimp only)
  case capEq => exact h1
  case ub => exact h2
  case legal => exact hlegal
  case proto =>
    intro t'
    by_cases e : t' = t
    · subst e; simpa using hproto
    · simpa [upd_ne _ _ _ _ e] using hproto' t' e
  case lock => exact l1
  case excl => exact l2
  case len => exact h7
  case sizeLe => exact h8
  case baseLt => exact h9
  case popI => simpa only [eg] using h10
  case pushI => simpa only [ep] using h11
  case pcs =>
    intro t'; apply hpc
    by_cases e : t' = t
    · subst e; simpa using hok
    · simpa [upd_ne _ _ _ _ e] using h12 t'
  case owned => simpa only [es] using h13
  case uniqT => simpa only [es] using h14
  case uniqTR => simpa only [es] using h15
  case uniqR => exact h16
  case items => simpa only [eb] using h17
  case refOk => exact h18
  case refGet => exact h19
  case refPut => exact h20

theorem Inv.others {cap : Nat} {s : St T} {q : List T} {base : Nat} (hI : Inv cap s q base) {t : Tid}
    (h : inCS (s.pc t) = true) {t' : Tid} (hne : t' ≠ t) : inCS (s.pc t') = false := by
  cases e : inCS (s.pc t')
  · rfl
  · exact absurd (hI.excl _ _ e h) hne

theorem isPutCount_cs {p : PC T} (h : inCS p = false) : isPutCount p = false := by
  cases p <;> simp_all [inCS, isPutCount]
theorem isGetCount_cs {p : PC T} (h : inCS p = false) : isGetCount p = false := by
  cases p <;> simp_all [inCS, isGetCount]

theorem Inv.popEq {cap : Nat} {s : St T} {q : List T} {base : Nat} (hI : Inv cap s q base) {t : Tid}
    (h : inCS (s.pc t) = true) (hg : isGetCount (s.pc t) = false) : s.buf.popIdx = base := by
  apply hI.popI
  intro t'
  by_cases e : t' = t
  · rw [e]; exact hg
  · exact isGetCount_cs (hI.others h e)

theorem Inv.pushEq {cap : Nat} {s : St T} {q : List T} {base : Nat} (hI : Inv cap s q base) {t : Tid}
    (h : inCS (s.pc t) = true) (hg : isPutCount (s.pc t) = false) :
    s.buf.pushIdx = w cap base s.buf.size := by
  apply hI.pushI
  intro t'
  by_cases e : t' = t
  · rw [e]; exact hg
  · exact isPutCount_cs (hI.others h e)

/-- A program counter outside the critical section depends only on the element it is building. -/
theorem pcok_noncs {b b' : Buf T} {q q' : List T} {base base' : Nat} {p : PC T} (h : PCok b q base p)
    (hcs : inCS p = false)
    (hb : ∀ v k, building p = some (v, k) → (∃ i, i < b.size ∧ k = w b.capacity base i ∧ q[i]? = some v) →
      ∃ i, i < b'.size ∧ k = w b'.capacity base' i ∧ q'[i]? = some v) : PCok b' q' base' p := by
  cases p <;> first
    | trivial
    | (exact hb _ _ rfl h)
    | exact h
    | (simp [inCS] at hcs)

theorem building_slot {p : PC T} {v : T} {k : Nat} (h : building p = some (v, k)) : slotOf p = some k := by
  cases p <;> simp_all [building, slotOf]

/-- Capturing a free slot. -/
theorem inv_capture {cap : Nat} {s : St T} {q : List T} {base : Nat} (hI : Inv cap s q base) (t : Tid)
    (p' : PC T) (k : Nat)
    (hcs : inCS (s.pc t) = true) (hcs' : inCS p' = true)
    (hs0 : slotOf (s.pc t) = none) (hs : slotOf p' = some k)
    (hbld : building p' = building (s.pc t))
    (hg : isGetCount p' = isGetCount (s.pc t)) (hp : isPutCount p' = isPutCount (s.pc t))
    (hph : phase p' = phase (s.pc t))
    (hfree : s.buf.nodeBusy k = false)
    (hok : PCok s.buf q base p') :
    Inv cap { s with buf := { s.buf with nodeBusy := upd s.buf.nodeBusy k true }, pc := upd s.pc t p' }
      q base := by
  have hI0 := hI
  obtain ⟨h1, h2, h3, h4, h5, h6, h7, h8, h9, h10, h11, h12, h13, h14, h15, h16, h17, h18, h19, h20⟩ := hI
  have hpc : ∀ p, PCok s.buf q base p →
      PCok { s.buf with nodeBusy := upd s.buf.nodeBusy k true } q base p := by
    intro p h; cases p <;> exact h
  have eb := upd_inv building hbld
  have eg := upd_inv isGetCount hg
  have ep := upd_inv isPutCount hp
  have eph := upd_inv phase hph
  have ecs : ∀ t', inCS (upd s.pc t p' t') = inCS (s.pc t') := upd_inv inCS (by rw [hcs, hcs'])
  have hnot : ¬ ((∃ t, slotOf (s.pc t) = some k) ∨ ∃ r ∈ s.refs, r.slot = k) := by
    rw [← h13, hfree]; simp
  constructor <;> (try dsimp only)
  case capEq => exact h1
  case ub => exact h2
  case legal => exact h3
  case proto => simpa only [eph] using h4
  case lock => simpa only [ecs] using h5
  case excl => simpa only [ecs] using h6
  case len => exact h7
  case sizeLe => exact h8
  case baseLt => exact h9
  case popI => simpa only [eg] using h10
  case pushI => simpa only [ep] using h11
  case pcs =>
    intro t'; apply hpc
    by_cases e : t' = t
    · subst e; simpa using hok
    · simpa [upd_ne _ _ _ _ e] using h12 t'
  case owned =>
    intro k'
    by_cases e : k' = k
    · subst e; simp only [upd_same, true_iff]
      exact Or.inl ⟨t, by rw [upd_same]; exact hs⟩
    · rw [upd_ne _ _ _ _ e, h13 k']
      apply or_congr _ Iff.rfl
      constructor
      · rintro ⟨t', h⟩
        refine ⟨t', ?_⟩
        rw [upd_ne]
        · exact h
        · rintro rfl; rw [hs0] at h; cases h
      · rintro ⟨t', h⟩
        by_cases e' : t' = t
        · subst e'; rw [upd_same, hs] at h; cases h; exact absurd rfl e
        · rw [upd_ne _ _ _ _ e'] at h; exact ⟨t', h⟩
  case uniqT =>
    intro t1 t2 k' e1 e2
    by_cases a1 : t1 = t <;> by_cases a2 : t2 = t
    · rw [a1, a2]
    · subst a1; rw [upd_same, hs] at e1; cases e1
      rw [upd_ne _ _ _ _ a2] at e2; exact absurd (Or.inl ⟨_, e2⟩) hnot
    · subst a2; rw [upd_same, hs] at e2; cases e2
      rw [upd_ne _ _ _ _ a1] at e1; exact absurd (Or.inl ⟨_, e1⟩) hnot
    · rw [upd_ne _ _ _ _ a1] at e1; rw [upd_ne _ _ _ _ a2] at e2; exact h14 _ _ _ e1 e2
  case uniqTR =>
    intro t1 k' e1 r hr
    by_cases a1 : t1 = t
    · subst a1; rw [upd_same, hs] at e1; cases e1
      intro e; exact hnot (Or.inr ⟨r, hr, e⟩)
    · rw [upd_ne _ _ _ _ a1] at e1; exact h15 _ _ e1 r hr
  case uniqR => exact h16
  case items => simpa only [eb] using h17
  case refOk => exact h18
  case refGet => exact h19
  case refPut => exact h20

/-- A change of the ring indices by the thread in the critical section. -/
theorem inv_index {cap : Nat} {s : St T} {q : List T} {base : Nat} (hI : Inv cap s q base) (t : Tid)
    (p' : PC T) (push' pop' : Nat)
    (hcs : inCS (s.pc t) = true) (hcs' : inCS p' = true)
    (hs : slotOf p' = slotOf (s.pc t))
    (hbld : building p' = building (s.pc t))
    (hph : phase p' = phase (s.pc t))
    (hpop : isGetCount p' = true ∨ pop' = base)
    (hpush : isPutCount p' = true ∨ push' = w cap base s.buf.size)
    (hok : PCok { s.buf with pushIdx := push', popIdx := pop' } q base p') :
    Inv cap { s with buf := { s.buf with pushIdx := push', popIdx := pop' }, pc := upd s.pc t p' }
      q base := by
  have hI0 := hI
  obtain ⟨h1, h2, h3, h4, h5, h6, h7, h8, h9, h10, h11, h12, h13, h14, h15, h16, h17, h18, h19, h20⟩ := hI
  have es := upd_inv slotOf hs
  have eb := upd_inv building hbld
  have eph := upd_inv phase hph
  have ecs : ∀ t', inCS (upd s.pc t p' t') = inCS (s.pc t') := upd_inv inCS (by rw [hcs, hcs'])
  constructor <;> (try dsimp only)
  case capEq => exact h1
  case ub => exact h2
  case legal => exact h3
  case proto => simpa only [eph] using h4
  case lock => simpa only [ecs] using h5
  case excl => simpa only [ecs] using h6
  case len => exact h7
  case sizeLe => exact h8
  case baseLt => exact h9
  case popI =>
    intro h
    rcases hpop with e | e
    · have := h t; rw [upd_same, e] at this; cases this
    · exact e
  case pushI =>
    intro h
    rcases hpush with e | e
    · have := h t; rw [upd_same, e] at this; cases this
    · exact e
  case pcs =>
    intro t'
    by_cases e : t' = t
    · subst e; simpa using hok
    · simp only [upd_ne _ _ _ _ e]
      exact pcok_noncs (h12 t') (hI0.others hcs e) (fun _ _ _ h => h)
  case owned => simpa only [es] using h13
  case uniqT => simpa only [es] using h14
  case uniqTR => simpa only [es] using h15
  case uniqR => exact h16
  case items => simpa only [eb] using h17
  case refOk => exact h18
  case refGet => exact h19
  case refPut => exact h20

theorem legal_stored {cap : Nat} {h : List (Entry T)} {q : List T} (t : Tid) (v : T) (hl : Legal cap h q)
    (hlt : q.length < cap) : Legal cap (h ++ [.lin t (.put v) .stored]) (q ++ [v]) := by
  have := Legal.lin (cap := cap) t (.put v) hl
  simpa [Queue.run, hlt] using this
theorem legal_full {cap : Nat} {h : List (Entry T)} {q : List T} (t : Tid) (v : T) (hl : Legal cap h q)
    (hlt : ¬ q.length < cap) : Legal cap (h ++ [.lin t (.put v) .full]) q := by
  have := Legal.lin (cap := cap) t (.put v) hl
  simpa [Queue.run, hlt] using this
theorem legal_got {cap : Nat} {h : List (Entry T)} {v : T} {q : List T} (t : Tid) (hl : Legal cap h (v :: q)) :
    Legal cap (h ++ [.lin t .get (.got v)]) q := by
  have := Legal.lin (cap := cap) t .get hl
  simpa [Queue.run] using this
theorem legal_empty {cap : Nat} {h : List (Entry T)} (t : Tid) (hl : Legal cap h []) :
    Legal cap (h ++ [.lin t .get .empty]) [] := by
  have := Legal.lin (cap := cap) t .get hl
  simpa [Queue.run] using this

/-- `++size_` : the put takes effect. -/
theorem inv_putCount {cap : Nat} {s : St T} {q : List T} {base : Nat} (hI : Inv cap s q base) (t : Tid)
    (v : T) (k : Nat) (hpc : s.pc t = .putCount v k) :
    Inv cap { s with buf := { s.buf with size := s.buf.size + 1 }, pc := upd s.pc t (.putUnlock v k),
                     log := s.log ++ [.lin t (.put v) .stored] } (q ++ [v]) base := by
  have hI0 := hI
  obtain ⟨h1, h2, h3, h4, h5, h6, h7, h8, h9, h10, h11, h12, h13, h14, h15, h16, h17, h18, h19, h20⟩ := hI
  have hcs : inCS (s.pc t) = true := by rw [hpc]; rfl
  have es : ∀ t', slotOf (upd s.pc t (.putUnlock v k) t') = slotOf (s.pc t') :=
    upd_inv slotOf (by rw [hpc]; rfl)
  have ecs : ∀ t', inCS (upd s.pc t (.putUnlock v k) t') = inCS (s.pc t') := upd_inv inCS (by rw [hpc]; rfl)
  have hk := h12 t
  rw [hpc] at hk
  obtain ⟨hk1, hk2, hk3⟩ := hk
  have hst : slotOf (s.pc t) = some k := by rw [hpc]; rfl
  rw [h1] at hk1 hk2 hk3
  constructor <;> (try dsimp only)
  case capEq => exact h1
  case ub => exact h2
  case legal => exact legal_stored t v h3 (by omega)
  case proto =>
    intro t'
    by_cases e : t' = t
    · subst e; simp only [upd_same]; exact .lin _ _ (by have := h4 t'; rwa [hpc] at this)
    · simp only [upd_ne _ _ _ _ e]; exact .otherLin _ _ _ (Ne.symm e) (h4 t')
  case lock => simpa only [ecs] using h5
  case excl => simpa only [ecs] using h6
  case len => simp [h7]
  case sizeLe => exact hk2
  case baseLt => exact h9
  case popI =>
    intro _; exact hI0.popEq hcs (by rw [hpc]; rfl)
  case pushI =>
    intro _; exact hk3
  case pcs =>
    intro t'
    by_cases e : t' = t
    · subst e; simp only [upd_same]
      refine ⟨s.buf.size, by simp, by simp [h1, hk1], ?_⟩
      rw [List.getElem?_append_right (by omega)]; simp [h7]
    · simp only [upd_ne _ _ _ _ e]
      refine pcok_noncs (h12 t') (hI0.others hcs e) ?_
      rintro v' k' _ ⟨i, hi, hi2, hi3⟩
      refine ⟨i, by simp; omega, hi2, ?_⟩
      rw [List.getElem?_append_left (by omega)]; exact hi3
  case owned => simpa only [es] using h13
  case uniqT => simpa only [es] using h14
  case uniqTR => simpa only [es] using h15
  case uniqR => exact h16
  case items =>
    intro i hi
    by_cases e : i = s.buf.size
    · subst e
      right; exact ⟨t, v, by rw [upd_same, ← hk1]; rfl⟩
    · rcases h17 i (by omega) with h | ⟨t', v', h⟩
      · left; rw [List.getElem?_append_left (by omega)]; exact h
      · right; refine ⟨t', v', ?_⟩
        rw [upd_ne]
        · exact h
        · rintro rfl; rw [hpc] at h; cases h
  case refOk => exact h18
  case refGet =>
    intro r hr hf i hi
    by_cases e : i = s.buf.size
    · subst e; rw [← hk1]; exact h15 t k hst r hr
    · exact h19 r hr hf i (by omega)
  case refPut =>
    intro r hr hf
    obtain ⟨i, a, b, c⟩ := h20 r hr hf
    refine ⟨i, by omega, b, ?_⟩
    rw [List.getElem?_append_left (by omega)]; exact c

/-- `--size_` : the get takes effect. -/
theorem inv_getCount {cap : Nat} {s : St T} {v : T} {q : List T} {base : Nat} (hI : Inv cap s (v :: q) base)
    (t : Tid) (k : Nat) (hpc : s.pc t = .getCount k) :
    Inv cap { s with buf := { s.buf with size := s.buf.size - 1 }, pc := upd s.pc t (.getUnlock k v),
                     log := s.log ++ [.lin t .get (.got v)] } q (w cap base 1) := by
  have hI0 := hI
  obtain ⟨h1, h2, h3, h4, h5, h6, h7, h8, h9, h10, h11, h12, h13, h14, h15, h16, h17, h18, h19, h20⟩ := hI
  have hcs : inCS (s.pc t) = true := by rw [hpc]; rfl
  have es : ∀ t', slotOf (upd s.pc t (.getUnlock k v) t') = slotOf (s.pc t') :=
    upd_inv slotOf (by rw [hpc]; rfl)
  have eb : ∀ t', building (upd s.pc t (.getUnlock k v) t') = building (s.pc t') :=
    upd_inv building (by rw [hpc]; rfl)
  have ecs : ∀ t', inCS (upd s.pc t (.getUnlock k v) t') = inCS (s.pc t') := upd_inv inCS (by rw [hpc]; rfl)
  have hk := h12 t
  rw [hpc] at hk
  obtain ⟨hk1, hk2, hk3, hk4⟩ := hk
  have hst : slotOf (s.pc t) = some k := by rw [hpc]; rfl
  rw [h1] at hk4
  have hlen : q.length + 1 = s.buf.size := by simpa using h7
  have hsh : ∀ i, i < s.buf.size - 1 → w cap (w cap base 1) i = w cap base (i + 1) :=
    fun i hi => w_shift h9 (by omega)
  constructor <;> (try dsimp only)
  case capEq => exact h1
  case ub => exact h2
  case legal => exact legal_got t h3
  case proto =>
    intro t'
    by_cases e : t' = t
    · subst e; simp only [upd_same]; exact .lin _ _ (by have := h4 t'; rwa [hpc] at this)
    · simp only [upd_ne _ _ _ _ e]; exact .otherLin _ _ _ (Ne.symm e) (h4 t')
  case lock => simpa only [ecs] using h5
  case excl => simpa only [ecs] using h6
  case len => omega
  case sizeLe => simp; omega
  case baseLt => exact w_one_lt h9
  case popI => intro _; exact hk4
  case pushI =>
    intro _
    have := hI0.pushEq hcs (by rw [hpc]; rfl)
    rw [this, w_shift h9 (by omega)]
    congr 1; omega
  case pcs =>
    intro t'
    by_cases e : t' = t
    · subst e; simp only [upd_same]
      refine ⟨by rw [hk3]; rfl, by simp only; omega, ?_⟩
      intro i hi
      simp only at hi
      simp only [h1]
      rw [hsh i hi, hk1]
      intro hh
      have := w_inj (i := 0) (j := i + 1) h9 (by omega) (by omega) (by rw [w_zero h9]; exact hh)
      omega
    · simp only [upd_ne _ _ _ _ e]
      refine pcok_noncs (h12 t') (hI0.others hcs e) ?_
      rintro v' k' hb ⟨i, hi, hi2, hi3⟩
      rw [h1] at hi2
      have hi0 : i ≠ 0 := by
        rintro rfl
        rw [w_zero h9, ← hk1] at hi2
        have := building_slot hb
        rw [hi2] at this
        exact e (h14 _ _ _ this hst)
      obtain ⟨j, rfl⟩ : ∃ j, i = j + 1 := ⟨i - 1, by omega⟩
      refine ⟨j, by simp only; omega, ?_, by simpa using hi3⟩
      simp only [h1]; rw [hsh j (by omega)]; exact hi2
  case owned => simpa only [es] using h13
  case uniqT => simpa only [es] using h14
  case uniqTR => simpa only [es] using h15
  case uniqR => exact h16
  case items =>
    intro i hi
    simp only [eb, hsh i hi]
    have := h17 (i + 1) (by omega)
    simpa using this
  case refOk => exact h18
  case refGet =>
    intro r hr hf i hi
    rw [hsh i hi]
    exact h19 r hr hf (i + 1) (by omega)
  case refPut =>
    intro r hr hf
    obtain ⟨i, a, b, c⟩ := h20 r hr hf
    have hi0 : i ≠ 0 := by
      rintro rfl
      rw [w_zero h9, ← hk1] at b
      exact h15 t k hst r hr b
    obtain ⟨j, rfl⟩ : ∃ j, i = j + 1 := ⟨i - 1, by omega⟩
    refine ⟨j, by omega, ?_, by simpa using c⟩
    rw [hsh j (by omega)]; exact b

/-- `node.init` begins. -/
theorem inv_putInit {cap : Nat} {s : St T} {q : List T} {base : Nat} (hI : Inv cap s q base) (t : Tid)
    (v : T) (k : Nat) (hpc : s.pc t = .putInit v k) :
    Inv cap { s with buf := { s.buf with item := upd s.buf.item k none }, pc := upd s.pc t (.putBuild v k) }
      q base := by
  have hI0 := hI
  obtain ⟨h1, h2, h3, h4, h5, h6, h7, h8, h9, h10, h11, h12, h13, h14, h15, h16, h17, h18, h19, h20⟩ := hI
  have hst : slotOf (s.pc t) = some k := by rw [hpc]; rfl
  have es : ∀ t', slotOf (upd s.pc t (.putBuild v k) t') = slotOf (s.pc t') :=
    upd_inv slotOf (by rw [hpc]; rfl)
  have eb : ∀ t', building (upd s.pc t (.putBuild v k) t') = building (s.pc t') :=
    upd_inv building (by rw [hpc]; rfl)
  have ecs : ∀ t', inCS (upd s.pc t (.putBuild v k) t') = inCS (s.pc t') := upd_inv inCS (by rw [hpc]; rfl)
  have eg : ∀ t', isGetCount (upd s.pc t (.putBuild v k) t') = isGetCount (s.pc t') :=
    upd_inv isGetCount (by rw [hpc]; rfl)
  have ep : ∀ t', isPutCount (upd s.pc t (.putBuild v k) t') = isPutCount (s.pc t') :=
    upd_inv isPutCount (by rw [hpc]; rfl)
  have eph : ∀ t', phase (upd s.pc t (.putBuild v k) t') = phase (s.pc t') :=
    upd_inv phase (by rw [hpc]; rfl)
  constructor <;> (try dsimp only)
  case capEq => exact h1
  case ub => exact h2
  case legal => exact h3
  case proto => simpa only [eph] using h4
  case lock => simpa only [ecs] using h5
  case excl => simpa only [ecs] using h6
  case len => exact h7
  case sizeLe => exact h8
  case baseLt => exact h9
  case popI => simpa only [eg] using h10
  case pushI => simpa only [ep] using h11
  case pcs =>
    intro t'
    by_cases e : t' = t
    · subst e; simp only [upd_same]
      have := h12 t'; rw [hpc] at this; exact this
    · simp only [upd_ne _ _ _ _ e]
      have hne : ∀ k', slotOf (s.pc t') = some k' → k' ≠ k := by
        intro k' hk' ek; subst ek; exact e (h14 _ _ _ hk' hst)
      have := h12 t'
      generalize hp : s.pc t' = p at this hne
      cases p with
      | getAdvance k' => simpa only [PCok, upd_ne _ _ _ _ (hne k' rfl)] using this
      | getCount k' => simpa only [PCok, upd_ne _ _ _ _ (hne k' rfl)] using this
      | getUnlock k' _ => simpa only [PCok, upd_ne _ _ _ _ (hne k' rfl)] using this
      | _ => exact this
  case owned => simpa only [es] using h13
  case uniqT => simpa only [es] using h14
  case uniqTR => simpa only [es] using h15
  case uniqR => exact h16
  case items =>
    intro i hi
    simp only [eb]
    by_cases e : w cap base i = k
    · right; exact ⟨t, v, by rw [hpc, e]; rfl⟩
    · rw [upd_ne _ _ _ _ e]; exact h17 i hi
  case refOk =>
    intro r hr
    rw [upd_ne _ _ _ _ (h15 t k hst r hr)]; exact h18 r hr
  case refGet => exact h19
  case refPut => exact h20

/-- `node.init` finishes and the `NodeRef` is returned. -/
theorem inv_putBuild {cap : Nat} {s : St T} {q : List T} {base : Nat} (hI : Inv cap s q base) (t : Tid)
    (v : T) (k : Nat) (hpc : s.pc t = .putBuild v k) :
    Inv cap { s with buf := { s.buf with item := upd s.buf.item k (some v) }, pc := upd s.pc t .idle,
                     refs := s.refs ++ [{ owner := t, slot := k, fromGet := false, val := v }],
                     log := s.log ++ [.ret t .stored] } q base := by
  have hI0 := hI
  obtain ⟨h1, h2, h3, h4, h5, h6, h7, h8, h9, h10, h11, h12, h13, h14, h15, h16, h17, h18, h19, h20⟩ := hI
  have hst : slotOf (s.pc t) = some k := by rw [hpc]; rfl
  have ecs : ∀ t', inCS (upd s.pc t .idle t') = inCS (s.pc t') := upd_inv inCS (by rw [hpc]; rfl)
  have eg : ∀ t', isGetCount (upd s.pc t .idle t') = isGetCount (s.pc t') :=
    upd_inv isGetCount (by rw [hpc]; rfl)
  have ep : ∀ t', isPutCount (upd s.pc t .idle t') = isPutCount (s.pc t') :=
    upd_inv isPutCount (by rw [hpc]; rfl)
  have hk := h12 t
  rw [hpc] at hk
  obtain ⟨i0, hi0, hk0, hv0⟩ := hk
  rw [h1] at hk0
  constructor <;> (try dsimp only)
  case capEq => exact h1
  case ub => exact h2
  case legal => exact .ret _ _ h3
  case proto =>
    intro t'
    by_cases e : t' = t
    · subst e; simp only [upd_same]
      have := h4 t'; rw [hpc] at this; exact .ret _ _ this
    · simp only [upd_ne _ _ _ _ e]; exact .otherRet _ _ (Ne.symm e) (h4 t')
  case lock => simpa only [ecs] using h5
  case excl => simpa only [ecs] using h6
  case len => exact h7
  case sizeLe => exact h8
  case baseLt => exact h9
  case popI => simpa only [eg] using h10
  case pushI => simpa only [ep] using h11
  case pcs =>
    intro t'
    by_cases e : t' = t
    · subst e; simp only [upd_same]; trivial
    · simp only [upd_ne _ _ _ _ e]
      have hne : ∀ k', slotOf (s.pc t') = some k' → k' ≠ k := by
        intro k' hk' ek; subst ek; exact e (h14 _ _ _ hk' hst)
      have := h12 t'
      generalize hp : s.pc t' = p at this hne
      cases p with
      | getAdvance k' => simpa only [PCok, upd_ne _ _ _ _ (hne k' rfl)] using this
      | getCount k' => simpa only [PCok, upd_ne _ _ _ _ (hne k' rfl)] using this
      | getUnlock k' _ => simpa only [PCok, upd_ne _ _ _ _ (hne k' rfl)] using this
      | _ => exact this
  case owned =>
    intro k'
    rw [h13 k']
    constructor
    · rintro (⟨t', h⟩ | ⟨r, hr, h⟩)
      · by_cases e : t' = t
        · subst e; rw [hst] at h; cases h
          exact Or.inr ⟨_, List.mem_append_right _ (List.mem_singleton.2 rfl), rfl⟩
        · left; exact ⟨t', by rw [upd_ne _ _ _ _ e]; exact h⟩
      · right; exact ⟨r, List.mem_append_left _ hr, h⟩
    · rintro (⟨t', h⟩ | ⟨r, hr, h⟩)
      · by_cases e : t' = t
        · subst e; rw [upd_same] at h; cases h
        · left; exact ⟨t', by rw [upd_ne _ _ _ _ e] at h; exact h⟩
      · rcases List.mem_append.1 hr with hr | hr
        · right; exact ⟨r, hr, h⟩
        · rw [List.mem_singleton] at hr; subst hr; subst h; left; exact ⟨t, hst⟩
  case uniqT =>
    intro t1 t2 k' e1 e2
    by_cases a1 : t1 = t
    · subst a1; rw [upd_same] at e1; cases e1
    · by_cases a2 : t2 = t
      · subst a2; rw [upd_same] at e2; cases e2
      · rw [upd_ne _ _ _ _ a1] at e1; rw [upd_ne _ _ _ _ a2] at e2; exact h14 _ _ _ e1 e2
  case uniqTR =>
    intro t1 k' e1 r hr
    by_cases a1 : t1 = t
    · subst a1; rw [upd_same] at e1; cases e1
    · rw [upd_ne _ _ _ _ a1] at e1
      rcases List.mem_append.1 hr with hr | hr
      · exact h15 _ _ e1 r hr
      · rw [List.mem_singleton] at hr; subst hr
        rintro rfl; exact a1 (h14 _ _ _ e1 hst)
  case uniqR =>
    rw [List.map_append, List.nodup_append]
    refine ⟨h16, by simp, ?_⟩
    intro a ha b hb
    simp only [List.map_cons, List.map_nil, List.mem_singleton] at hb
    subst hb
    obtain ⟨r, hr, rfl⟩ := List.mem_map.1 ha
    exact h15 t _ hst r hr
  case items =>
    intro i hi
    by_cases e : i = i0
    · subst e; left; rw [← hk0, upd_same, hv0]
    · have hwne : w cap base i ≠ k := by
        rw [hk0]; intro h; exact e (w_inj h9 (by omega) (by omega) h)
      rw [upd_ne _ _ _ _ hwne]
      rcases h17 i hi with h | ⟨t', v', h⟩
      · exact Or.inl h
      · right; refine ⟨t', v', ?_⟩
        rw [upd_ne]
        · exact h
        · rintro rfl; rw [hpc] at h; cases h; exact hwne rfl
  case refOk =>
    intro r hr
    rcases List.mem_append.1 hr with hr | hr
    · rw [upd_ne _ _ _ _ (h15 t k hst r hr)]; exact h18 r hr
    · rw [List.mem_singleton] at hr; subst hr
      exact ⟨upd_same _ _ _, by simp only; rw [hk0]; exact w_lt h9 (by omega)⟩
  case refGet =>
    intro r hr hf
    rcases List.mem_append.1 hr with hr | hr
    · exact h19 r hr hf
    · rw [List.mem_singleton] at hr; subst hr; cases hf
  case refPut =>
    intro r hr hf
    rcases List.mem_append.1 hr with hr | hr
    · exact h20 r hr hf
    · rw [List.mem_singleton] at hr; subst hr; exact ⟨i0, hi0, hk0, hv0⟩

/-- `get` releases the lock and returns the `NodeRef`. -/
theorem inv_getUnlock {cap : Nat} {s : St T} {q : List T} {base : Nat} (hI : Inv cap s q base) (t : Tid)
    (v : T) (k : Nat) (hpc : s.pc t = .getUnlock k v) :
    Inv cap { s with buf := { s.buf with busy := false }, pc := upd s.pc t .idle,
                     refs := s.refs ++ [{ owner := t, slot := k, fromGet := true, val := v }],
                     log := s.log ++ [.ret t (.got v)] } q base := by
  have hI0 := hI
  obtain ⟨h1, h2, h3, h4, h5, h6, h7, h8, h9, h10, h11, h12, h13, h14, h15, h16, h17, h18, h19, h20⟩ := hI
  have hst : slotOf (s.pc t) = some k := by rw [hpc]; rfl
  have eb : ∀ t', building (upd s.pc t .idle t') = building (s.pc t') := upd_inv building (by rw [hpc]; rfl)
  have eg : ∀ t', isGetCount (upd s.pc t .idle t') = isGetCount (s.pc t') :=
    upd_inv isGetCount (by rw [hpc]; rfl)
  have ep : ∀ t', isPutCount (upd s.pc t .idle t') = isPutCount (s.pc t') :=
    upd_inv isPutCount (by rw [hpc]; rfl)
  have hk := h12 t
  rw [hpc] at hk
  obtain ⟨hk1, hk2, hk3⟩ := hk
  rw [h1] at hk2 hk3
  obtain ⟨l1, l2⟩ := lock_pres (b' := false) (t := t) (p' := .idle) h5 h6
    (Or.inr (Or.inl ⟨rfl, rfl, by rw [hpc]; rfl⟩))
  constructor <;> (try dsimp only)
  case capEq => exact h1
  case ub => exact h2
  case legal => exact .ret _ _ h3
  case proto =>
    intro t'
    by_cases e : t' = t
    · subst e; simp only [upd_same]
      have := h4 t'; rw [hpc] at this; exact .ret _ _ this
    · simp only [upd_ne _ _ _ _ e]; exact .otherRet _ _ (Ne.symm e) (h4 t')
  case lock => exact l1
  case excl => exact l2
  case len => exact h7
  case sizeLe => exact h8
  case baseLt => exact h9
  case popI => simpa only [eg] using h10
  case pushI => simpa only [ep] using h11
  case pcs =>
    intro t'
    by_cases e : t' = t
    · subst e; simp only [upd_same]; trivial
    · simp only [upd_ne _ _ _ _ e]
      have := h12 t'
      generalize hp : s.pc t' = p at this
      cases p <;> exact this
  case owned =>
    intro k'
    rw [h13 k']
    constructor
    · rintro (⟨t', h⟩ | ⟨r, hr, h⟩)
      · by_cases e : t' = t
        · subst e; rw [hst] at h; cases h
          exact Or.inr ⟨_, List.mem_append_right _ (List.mem_singleton.2 rfl), rfl⟩
        · left; exact ⟨t', by rw [upd_ne _ _ _ _ e]; exact h⟩
      · right; exact ⟨r, List.mem_append_left _ hr, h⟩
    · rintro (⟨t', h⟩ | ⟨r, hr, h⟩)
      · by_cases e : t' = t
        · subst e; rw [upd_same] at h; cases h
        · left; exact ⟨t', by rw [upd_ne _ _ _ _ e] at h; exact h⟩
      · rcases List.mem_append.1 hr with hr | hr
        · right; exact ⟨r, hr, h⟩
        · rw [List.mem_singleton] at hr; subst hr; subst h; left; exact ⟨t, hst⟩
  case uniqT =>
    intro t1 t2 k' e1 e2
    by_cases a1 : t1 = t
    · subst a1; rw [upd_same] at e1; cases e1
    · by_cases a2 : t2 = t
      · subst a2; rw [upd_same] at e2; cases e2
      · rw [upd_ne _ _ _ _ a1] at e1; rw [upd_ne _ _ _ _ a2] at e2; exact h14 _ _ _ e1 e2
  case uniqTR =>
    intro t1 k' e1 r hr
    by_cases a1 : t1 = t
    · subst a1; rw [upd_same] at e1; cases e1
    · rw [upd_ne _ _ _ _ a1] at e1
      rcases List.mem_append.1 hr with hr | hr
      · exact h15 _ _ e1 r hr
      · rw [List.mem_singleton] at hr; subst hr
        rintro rfl; exact a1 (h14 _ _ _ e1 hst)
  case uniqR =>
    rw [List.map_append, List.nodup_append]
    refine ⟨h16, by simp, ?_⟩
    intro a ha b hb
    simp only [List.map_cons, List.map_nil, List.mem_singleton] at hb
    subst hb
    obtain ⟨r, hr, rfl⟩ := List.mem_map.1 ha
    exact h15 t _ hst r hr
  case items => simpa only [eb] using h17
  case refOk =>
    intro r hr
    rcases List.mem_append.1 hr with hr | hr
    · exact h18 r hr
    · rw [List.mem_singleton] at hr; subst hr; exact ⟨hk1, hk2⟩
  case refGet =>
    intro r hr hf
    rcases List.mem_append.1 hr with hr | hr
    · exact h19 r hr hf
    · rw [List.mem_singleton] at hr; subst hr; exact hk3
  case refPut =>
    intro r hr hf
    rcases List.mem_append.1 hr with hr | hr
    · exact h20 r hr hf
    · rw [List.mem_singleton] at hr; subst hr; cases hf

/-- A `NodeRef` is destroyed. -/
theorem inv_drop {cap : Nat} {s : St T} {q : List T} {base : Nat} (hI : Inv cap s q base) (i : Nat) :
    Inv cap (drop s i) q base := by
  unfold drop
  split
  · exact hI
  next r hr =>
  obtain ⟨h1, h2, h3, h4, h5, h6, h7, h8, h9, h10, h11, h12, h13, h14, h15, h16, h17, h18, h19, h20⟩ := hI
  have hsub : ∀ x ∈ s.refs.eraseIdx i, x ∈ s.refs := fun x hx => List.mem_of_mem_eraseIdx hx
  have hrm : r ∈ s.refs := List.mem_of_getElem? hr
  have hnd : (∀ x ∈ s.refs.eraseIdx i, x.slot ≠ r.slot) ∧
      (∀ x ∈ s.refs, x.slot ≠ r.slot → x ∈ s.refs.eraseIdx i) := by
    obtain ⟨hi, hri⟩ := List.getElem?_eq_some_iff.1 hr
    have hinj : ∀ a b (ha : a < s.refs.length) (hb : b < s.refs.length),
        (s.refs[a]).slot = (s.refs[b]).slot → a = b := by
      intro a b ha hb he
      exact (List.getElem?_inj (by simpa using ha) h16).1 (by simp [he, ha, hb])
    constructor
    · intro x hx
      rw [List.mem_eraseIdx_iff_getElem] at hx
      obtain ⟨j, hj, hne, hxj⟩ := hx
      rintro he
      apply hne
      apply hinj j i hj hi
      rw [hxj, hri, he]
    · intro x hx hne
      rw [List.mem_eraseIdx_iff_getElem]
      obtain ⟨j, hj, hxj⟩ := List.mem_iff_getElem.1 hx
      refine ⟨j, hj, ?_, hxj⟩
      rintro rfl
      apply hne; rw [← hxj, hri]
  constructor <;> (try dsimp only)
  case capEq => exact h1
  case ub => exact h2
  case legal => exact h3
  case proto => exact h4
  case lock => exact h5
  case excl => exact h6
  case len => exact h7
  case sizeLe => exact h8
  case baseLt => exact h9
  case popI => exact h10
  case pushI => exact h11
  case pcs =>
    intro t'
    have := h12 t'
    generalize hp : s.pc t' = p at this
    cases p <;> exact this
  case owned =>
    intro k
    by_cases e : k = r.slot
    · subst e
      simp only [upd_same, Bool.false_eq_true, false_iff, not_or, not_exists, not_and]
      refine ⟨fun t ht => h15 t _ ht r hrm rfl, fun x hx => hnd.1 x hx⟩
    · rw [upd_ne _ _ _ _ e, h13 k]
      apply or_congr Iff.rfl
      constructor
      · rintro ⟨x, hx, rfl⟩; exact ⟨x, hnd.2 x hx e, rfl⟩
      · rintro ⟨x, hx, rfl⟩; exact ⟨x, hsub x hx, rfl⟩
  case uniqT => exact h14
  case uniqTR => intro t k h x hx; exact h15 t k h x (hsub x hx)
  case uniqR => exact h16.sublist ((List.eraseIdx_sublist _ _).map _)
  case items => exact h17
  case refOk => intro x hx; exact h18 x (hsub x hx)
  case refGet => intro x hx; exact h19 x (hsub x hx)
  case refPut => intro x hx; exact h20 x (hsub x hx)

/-- A member function is called. -/
theorem inv_call {cap : Nat} {s : St T} {q : List T} {base : Nat} (hI : Inv cap s q base) (t : Tid)
    (c : Call T) : Inv cap (call s t c) q base := by
  unfold call
  split
  case h_2 => exact hI
  next hpc =>
  have hpt := hI.proto t
  rw [hpc] at hpt
  have hother : ∀ t', t' ≠ t → Proto t' (s.log ++ [.inv t c]) (phase (s.pc t')) :=
    fun t' hne => .otherInv _ _ (Ne.symm hne) (hI.proto t')
  have key : ∀ p' : PC T, slotOf p' = none → building p' = none → isGetCount p' = false →
      isPutCount p' = false → PCok s.buf q base p' → phase p' = .called c → inCS p' = false →
      Inv cap { s with pc := upd s.pc t p', log := s.log ++ [.inv t c] } q base := by
    intro p' a1 a2 a3 a4 a5 a6 a7
    refine inv_frame hI t p' s.buf.busy _ (by rw [hpc]; exact a1) (by rw [hpc]; exact a2)
      (by rw [hpc]; exact a3) (by rw [hpc]; exact a4) a5 (.inv _ _ hI.legal)
      (by rw [a6]; exact .inv _ hpt) hother (Or.inr (Or.inr ⟨rfl, a7, by rw [hpc]; rfl⟩))
  cases c <;> exact key _ rfl rfl rfl rfl (by first | trivial | rfl) rfl rfl

/-- the queue after a step of a thread at this point -/
def nextQ : PC T → List T → List T
  | .putCount v _, q => q ++ [v]
  | .getCount _, q => q.tail
  | _, q => q

/-- the first slot of the window after a step of a thread at this point -/
def nextBase (cap : Nat) : PC T → Nat → Nat
  | .getCount _, base => w cap base 1
  | _, base => base

/-- One atomic step. -/
theorem inv_tick_exact {cap : Nat} {s : St T} {q : List T} {base : Nat} (hI : Inv cap s q base) (t : Tid) :
    Inv cap (tick s t) (nextQ (s.pc t) q) (nextBase cap (s.pc t) base) := by
  have hother : ∀ (e : Entry T), (∀ t', t' ≠ t → ∀ p, Proto t' s.log p → Proto t' (s.log ++ [e]) p) →
      ∀ t', t' ≠ t → Proto t' (s.log ++ [e]) (phase (s.pc t')) :=
    fun e h t' hne => h t' hne _ (hI.proto t')
  have hol : ∀ c r, ∀ t', t' ≠ t → Proto t' (s.log ++ [.lin t c r]) (phase (s.pc t')) :=
    fun c r => hother _ fun t' hne p h => .otherLin _ _ _ (Ne.symm hne) h
  have hor : ∀ r, ∀ t', t' ≠ t → Proto t' (s.log ++ [.ret t r]) (phase (s.pc t')) :=
    fun r => hother _ fun t' hne p h => .otherRet _ _ (Ne.symm hne) h
  have hpt := hI.proto t
  have hpk := hI.pcs t
  have hcap := hI.capEq
  have hbl := hI.baseLt
  have hlen := hI.len
  have hsz := hI.sizeLe
  unfold tick
  generalize hpc : s.pc t = p at hpt hpk
  cases p with
  | idle => exact hI
  | putSpin v =>
    dsimp only
    split
    · exact hI
    next hb =>
    exact inv_frame hI t (.putCheck v) true s.log (by rw [hpc]; rfl) (by rw [hpc]; rfl)
      (by rw [hpc]; rfl) (by rw [hpc]; rfl) trivial hI.legal hpt (fun t' _ => hI.proto t')
      (Or.inl ⟨rfl, rfl, Or.inl (by simpa using hb)⟩)
  | getSpin =>
    dsimp only
    split
    · exact hI
    next hb =>
    exact inv_frame hI t .getCheck true s.log (by rw [hpc]; rfl) (by rw [hpc]; rfl)
      (by rw [hpc]; rfl) (by rw [hpc]; rfl) trivial hI.legal hpt (fun t' _ => hI.proto t')
      (Or.inl ⟨rfl, rfl, Or.inl (by simpa using hb)⟩)
  | obsSpin c =>
    dsimp only
    split
    · exact hI
    next hb =>
    exact inv_frame hI t (.obsRead c) true s.log (by rw [hpc]; rfl) (by rw [hpc]; rfl)
      (by rw [hpc]; rfl) (by rw [hpc]; rfl) hpk hI.legal hpt (fun t' _ => hI.proto t')
      (Or.inl ⟨rfl, rfl, Or.inl (by simpa using hb)⟩)
  | putCheck v =>
    dsimp only
    have hcs : inCS (s.pc t) = true := by rw [hpc]; rfl
    have e1 := hI.popEq hcs (by rw [hpc]; rfl)
    have e2 := hI.pushEq hcs (by rw [hpc]; rfl)
    have hb : s.buf.busy = true := hI.lock.2 ⟨t, hcs⟩
    split
    next hf =>
      have hfull : ¬ q.length < cap := by
        rw [e1, e2] at hf
        obtain ⟨hf1, hf2⟩ := hf
        intro hlt
        have := w_inj (i := 0) (j := s.buf.size) hbl (by omega) (by omega) (by rw [w_zero hbl]; exact hf1)
        omega
      have := inv_frame hI t (.putFull v) true (s.log ++ [.lin t (.put v) .full]) (by rw [hpc]; rfl)
        (by rw [hpc]; rfl) (by rw [hpc]; rfl) (by rw [hpc]; rfl) trivial
        (legal_full t v hI.legal hfull) (.lin _ _ hpt) (hol _ _) (Or.inl ⟨rfl, rfl, Or.inr hcs⟩)
      rw [← hb] at this
      exact this
    next hf =>
      have hnf : s.buf.size < s.buf.capacity := by
        rw [e1, e2] at hf
        rw [hcap]
        rcases Nat.lt_or_ge s.buf.size cap with h | h
        · exact h
        · exfalso
          have hse : s.buf.size = cap := by omega
          apply hf
          rw [hse]
          refine ⟨?_, by omega⟩
          unfold w; split <;> omega
      have := inv_frame hI t (.putCapture v) true s.log (by rw [hpc]; rfl)
        (by rw [hpc]; rfl) (by rw [hpc]; rfl) (by rw [hpc]; rfl) hnf
        hI.legal hpt (fun t' _ => hI.proto t') (Or.inl ⟨rfl, rfl, Or.inr hcs⟩)
      rw [← hb] at this
      exact this
  | getCheck =>
    dsimp only
    have hcs : inCS (s.pc t) = true := by rw [hpc]; rfl
    have e1 := hI.popEq hcs (by rw [hpc]; rfl)
    have e2 := hI.pushEq hcs (by rw [hpc]; rfl)
    have hb : s.buf.busy = true := hI.lock.2 ⟨t, hcs⟩
    split
    next hf =>
      have hq : q = [] := by
        apply List.eq_nil_of_length_eq_zero; omega
      subst hq
      have := inv_frame hI t .getEmpty true (s.log ++ [.lin t .get .empty]) (by rw [hpc]; rfl)
        (by rw [hpc]; rfl) (by rw [hpc]; rfl) (by rw [hpc]; rfl) trivial
        (legal_empty t hI.legal) (.lin _ _ hpt) (hol _ _) (Or.inl ⟨rfl, rfl, Or.inr hcs⟩)
      rw [← hb] at this
      exact this
    next hf =>
      have hnf : 0 < s.buf.size := by
        rw [e1, e2] at hf
        rcases Nat.eq_zero_or_pos s.buf.size with h | h
        · exfalso
          apply hf
          rw [h]
          exact ⟨w_zero hbl, rfl⟩
        · exact h
      have := inv_frame hI t .getCapture true s.log (by rw [hpc]; rfl)
        (by rw [hpc]; rfl) (by rw [hpc]; rfl) (by rw [hpc]; rfl) hnf
        hI.legal hpt (fun t' _ => hI.proto t') (Or.inl ⟨rfl, rfl, Or.inr hcs⟩)
      rw [← hb] at this
      exact this
  | putFull v =>
    exact inv_frame hI t .idle false (s.log ++ [.ret t .full]) (by rw [hpc]; rfl) (by rw [hpc]; rfl)
      (by rw [hpc]; rfl) (by rw [hpc]; rfl) trivial (.ret _ _ hI.legal) (.ret _ _ hpt) (hor _)
      (Or.inr (Or.inl ⟨rfl, rfl, by rw [hpc]; rfl⟩))
  | getEmpty =>
    exact inv_frame hI t .idle false (s.log ++ [.ret t .empty]) (by rw [hpc]; rfl) (by rw [hpc]; rfl)
      (by rw [hpc]; rfl) (by rw [hpc]; rfl) trivial (.ret _ _ hI.legal) (.ret _ _ hpt) (hor _)
      (Or.inr (Or.inl ⟨rfl, rfl, by rw [hpc]; rfl⟩))
  | putRetry v =>
    exact inv_frame hI t (.putSpin v) false s.log (by rw [hpc]; rfl) (by rw [hpc]; rfl)
      (by rw [hpc]; rfl) (by rw [hpc]; rfl) trivial hI.legal hpt (fun t' _ => hI.proto t')
      (Or.inr (Or.inl ⟨rfl, rfl, by rw [hpc]; rfl⟩))
  | getRetry =>
    exact inv_frame hI t .getSpin false s.log (by rw [hpc]; rfl) (by rw [hpc]; rfl)
      (by rw [hpc]; rfl) (by rw [hpc]; rfl) trivial hI.legal hpt (fun t' _ => hI.proto t')
      (Or.inr (Or.inl ⟨rfl, rfl, by rw [hpc]; rfl⟩))
  | putUnlock v k =>
    exact inv_frame hI t (.putInit v k) false s.log (by rw [hpc]; rfl) (by rw [hpc]; rfl)
      (by rw [hpc]; rfl) (by rw [hpc]; rfl) hpk hI.legal hpt (fun t' _ => hI.proto t')
      (Or.inr (Or.inl ⟨rfl, rfl, by rw [hpc]; rfl⟩))
  | putCapture v =>
    dsimp only
    have hcs : inCS (s.pc t) = true := by rw [hpc]; rfl
    have e2 := hI.pushEq hcs (by rw [hpc]; rfl)
    have hpk' : s.buf.size < s.buf.capacity := hpk
    have hlt : s.buf.pushIdx < s.buf.capacity := by rw [e2, hcap]; exact w_lt hbl (by omega)
    rw [if_neg (by omega)]
    split
    · have hb : s.buf.busy = true := hI.lock.2 ⟨t, hcs⟩
      have := inv_frame hI t (.putRetry v) true s.log (by rw [hpc]; rfl)
        (by rw [hpc]; rfl) (by rw [hpc]; rfl) (by rw [hpc]; rfl) trivial
        hI.legal hpt (fun t' _ => hI.proto t') (Or.inl ⟨rfl, rfl, Or.inr hcs⟩)
      rw [← hb] at this
      exact this
    next hnb =>
      exact inv_capture hI t (.putAdvance v s.buf.pushIdx) s.buf.pushIdx hcs rfl (by rw [hpc]; rfl) rfl
        (by rw [hpc]; rfl) (by rw [hpc]; rfl) (by rw [hpc]; rfl) (by rw [hpc]; rfl) (by simpa using hnb)
        ⟨by rw [e2, hcap], hpk'⟩
  | getCapture =>
    dsimp only
    have hcs : inCS (s.pc t) = true := by rw [hpc]; rfl
    have e1 := hI.popEq hcs (by rw [hpc]; rfl)
    have hpk' : 0 < s.buf.size := hpk
    rw [if_neg (by omega)]
    split
    · have hb : s.buf.busy = true := hI.lock.2 ⟨t, hcs⟩
      have := inv_frame hI t .getRetry true s.log (by rw [hpc]; rfl)
        (by rw [hpc]; rfl) (by rw [hpc]; rfl) (by rw [hpc]; rfl) trivial
        hI.legal hpt (fun t' _ => hI.proto t') (Or.inl ⟨rfl, rfl, Or.inr hcs⟩)
      rw [← hb] at this
      exact this
    next hnb =>
      refine inv_capture hI t (.getAdvance s.buf.popIdx) s.buf.popIdx hcs rfl (by rw [hpc]; rfl) rfl
        (by rw [hpc]; rfl) (by rw [hpc]; rfl) (by rw [hpc]; rfl) (by rw [hpc]; rfl) (by simpa using hnb)
        ⟨e1, hpk', ?_⟩
      rcases hI.items 0 hpk' with h | ⟨t', v', h⟩
      · rw [w_zero hbl] at h; rw [e1]; exact h
      · exfalso
        apply hnb
        rw [hI.owned, e1]
        left; refine ⟨t', ?_⟩
        have := building_slot h
        rwa [w_zero hbl] at this
  | putAdvance v k =>
    dsimp only
    have hcs : inCS (s.pc t) = true := by rw [hpc]; rfl
    have e1 := hI.popEq hcs (by rw [hpc]; rfl)
    have e2 := hI.pushEq hcs (by rw [hpc]; rfl)
    obtain ⟨a1, a2⟩ := hpk
    rw [if_neg (by omega)]
    exact inv_index hI t (.putCount v k) _ s.buf.popIdx hcs rfl (by rw [hpc]; rfl)
      (by rw [hpc]; rfl) (by rw [hpc]; rfl) (Or.inr e1) (Or.inl rfl)
      ⟨a1, a2, by simp only; rw [e2, hcap, w_succ hbl (by omega)]⟩
  | getAdvance k =>
    dsimp only
    have hcs : inCS (s.pc t) = true := by rw [hpc]; rfl
    have e1 := hI.popEq hcs (by rw [hpc]; rfl)
    have e2 := hI.pushEq hcs (by rw [hpc]; rfl)
    obtain ⟨a1, a2, a3⟩ := hpk
    rw [if_neg (by omega)]
    exact inv_index hI t (.getCount k) s.buf.pushIdx _ hcs rfl (by rw [hpc]; rfl)
      (by rw [hpc]; rfl) (by rw [hpc]; rfl) (Or.inl rfl) (Or.inr e2)
      ⟨a1, a2, a3, by simp only; rw [e1, hcap, mod_w hbl (by omega)]⟩
  | putCount v k =>
    dsimp only
    obtain ⟨a1, a2, a3⟩ := hpk
    rw [if_pos a2]
    exact inv_putCount hI t v k hpc
  | getCount k =>
    dsimp only
    obtain ⟨a1, a2, a3, a4⟩ := hpk
    rw [if_neg (by omega)]
    cases q with
    | nil => simp at hlen; omega
    | cons v q =>
      have : s.buf.item k = some v := a3
      rw [this]
      exact inv_getCount hI t k hpc
  | putInit v k => exact inv_putInit hI t v k hpc
  | putBuild v k => exact inv_putBuild hI t v k hpc
  | getUnlock k v => exact inv_getUnlock hI t v k hpc
  | obsRead c =>
    dsimp only
    have hcs : inCS (s.pc t) = true := by rw [hpc]; rfl
    have hb : s.buf.busy = true := hI.lock.2 ⟨t, hcs⟩
    have hobs : isObs c = true := hpk
    have key : ∀ n, Queue.run cap q c = (.num n, q) →
        Inv cap { s with pc := upd s.pc t (.obsUnlock c n), log := s.log ++ [.lin t c (.num n)] } q base := by
      intro n hn
      have hl : Legal cap (s.log ++ [.lin t c (.num n)]) q := by
        have := Legal.lin (cap := cap) t c hI.legal
        rwa [hn] at this
      have := inv_frame hI t (.obsUnlock c n) true (s.log ++ [.lin t c (.num n)]) (by rw [hpc]; rfl)
        (by rw [hpc]; rfl) (by rw [hpc]; rfl) (by rw [hpc]; rfl) hobs
        hl (.lin _ _ hpt) (hol _ _) (Or.inl ⟨rfl, rfl, Or.inr hcs⟩)
      rw [← hb] at this
      exact this
    refine key _ ?_
    cases c <;> simp_all [isObs, Queue.run]
  | obsUnlock c n =>
    exact inv_frame hI t .idle false (s.log ++ [.ret t (.num n)]) (by rw [hpc]; rfl) (by rw [hpc]; rfl)
      (by rw [hpc]; rfl) (by rw [hpc]; rfl) trivial (.ret _ _ hI.legal) (.ret _ _ hpt) (hor _)
      (Or.inr (Or.inl ⟨rfl, rfl, by rw [hpc]; rfl⟩))

theorem inv_tick {cap : Nat} {s : St T} {q : List T} {base : Nat} (hI : Inv cap s q base) (t : Tid) :
    ∃ q' base', Inv cap (tick s t) q' base' := ⟨_, _, inv_tick_exact hI t⟩

theorem inv_act {cap : Nat} {s : St T} {q : List T} {base : Nat} (hI : Inv cap s q base) (a : Act T) :
    ∃ q' base', Inv cap (act s a) q' base' := by
  cases a with
  | call t c => exact ⟨q, base, inv_call hI t c⟩
  | step t => exact inv_tick hI t
  | drop i => exact ⟨q, base, inv_drop hI i⟩

theorem inv_exec {cap : Nat} {s : St T} {q : List T} {base : Nat} (hI : Inv cap s q base) (as : List (Act T)) :
    ∃ q' base', Inv cap (exec s as) q' base' := by
  unfold exec
  induction as generalizing s q base with
  | nil => exact ⟨q, base, hI⟩
  | cons a as ih =>
    obtain ⟨q', base', h⟩ := inv_act hI a
    exact ih h

/-- The invariant holds in every reachable state. -/
theorem inv_reach {cap : Nat} (hc : 0 < cap) (as : List (Act T)) :
    ∃ q base, Inv cap (exec (init T cap) as) q base := inv_exec (inv_init hc) as

end Ring
end Soralog
