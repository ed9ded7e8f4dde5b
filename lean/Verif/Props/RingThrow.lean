import Verif.Model.RingThrow
import Verif.Props.Ring
import Verif.Props.Stuck
/-!
# C90: exceptions that the construction of a message lets through
-/
namespace Soralog
namespace Ring
open Spec
variable {T : Type}

/-! ## a queue whose constructions throw is a queue whose constructions never end

A thread whose construction throws goes on under a new identity; the old one stays where it was for ever. -/

/-- an entry of the history without its thread -/
def bare : Entry T → Entry T
  | .inv _ c => .inv 0 c
  | .lin _ c r => .lin 0 c r
  | .ret _ r => .ret 0 r

/-- a reference without its owner -/
def plain (r : Ref T) : Nat × Bool × T := (r.slot, r.fromGet, r.val)

structure Alias (who : Tid → Tid) (n : Nat) (s b : St T) : Prop where
  buf : s.buf = b.buf
  ub : s.ub = b.ub
  pc : ∀ t, s.pc t = b.pc (who t)
  refs : s.refs.map plain = b.refs.map plain
  log : s.log.map bare = b.log.map bare
  inj : ∀ t u, who t = who u → t = u
  known : ∀ t m, n ≤ m → who t ≠ 2 * m + 1
  fresh : ∀ m, n ≤ m → b.pc (2 * m + 1) = .idle

theorem upd_alias {who : Tid → Tid} (hw : ∀ t u, who t = who u → t = u) {p q : Tid → PC T} (h : ∀ t, p t = q (who t)) (t : Tid) (x : PC T) (u : Tid) :
    upd p t x u = upd q (who t) x (who u) := by
  unfold upd
  by_cases e : u = t
  · rw [if_pos e, if_pos (congrArg who e)]
  · rw [if_neg e, if_neg (fun e' => e (hw _ _ e')), h]

theorem Alias.put {who : Tid → Tid} {n : Nat} {s b : St T} (h : Alias who n s b) (t : Tid) (B : Buf T) (x : PC T) (R : Tid → List (Ref T))
    (L : Tid → List (Entry T)) (hR : ∀ u v, (R u).map plain = (R v).map plain) (hL : ∀ u v, (L u).map bare = (L v).map bare) (U : Bool) :
    Alias who n { s with buf := B, pc := upd s.pc t x, refs := s.refs ++ R t, log := s.log ++ L t, ub := U }
      { b with buf := B, pc := upd b.pc (who t) x, refs := b.refs ++ R (who t), log := b.log ++ L (who t), ub := U } where
  buf := rfl
  ub := rfl
  pc := upd_alias h.inj h.pc t x
  refs := by simp only [List.map_append, h.refs, hR t (who t)]
  log := by simp only [List.map_append, h.log, hL t (who t)]
  inj := h.inj
  known := h.known
  fresh := fun m hm => by
    show upd b.pc (who t) x (2 * m + 1) = _
    unfold upd
    rw [if_neg (fun e => h.known t m hm e.symm)]
    exact h.fresh m hm

theorem Alias.move {who : Tid → Tid} {n : Nat} {s b : St T} (h : Alias who n s b) (t : Tid) (B : Buf T) (x : PC T) :
    Alias who n { s with buf := B, pc := upd s.pc t x } { b with buf := B, pc := upd b.pc (who t) x } := by
  have := h.put t B x (fun _ => []) (fun _ => []) (fun _ _ => rfl) (fun _ _ => rfl) s.ub
  rw [List.append_nil, List.append_nil, List.append_nil, List.append_nil] at this
  have e := h.ub
  cases s; cases b
  dsimp only at e this ⊢
  rw [← e]; exact this

theorem Alias.say {who : Tid → Tid} {n : Nat} {s b : St T} (h : Alias who n s b) (t : Tid) (B : Buf T) (x : PC T)
    (L : Tid → List (Entry T)) (hL : ∀ u v, (L u).map bare = (L v).map bare) :
    Alias who n { s with buf := B, pc := upd s.pc t x, log := s.log ++ L t }
      { b with buf := B, pc := upd b.pc (who t) x, log := b.log ++ L (who t) } := by
  have := h.put t B x (fun _ => []) L (fun _ _ => rfl) hL s.ub
  rw [List.append_nil, List.append_nil] at this
  have e := h.ub
  cases s; cases b
  dsimp only at e this ⊢
  rw [← e]; exact this

theorem Alias.hold {who : Tid → Tid} {n : Nat} {s b : St T} (h : Alias who n s b) (t : Tid) (B : Buf T) (x : PC T) (R : Tid → List (Ref T))
    (hR : ∀ u v, (R u).map plain = (R v).map plain) (L : Tid → List (Entry T)) (hL : ∀ u v, (L u).map bare = (L v).map bare) :
    Alias who n { s with buf := B, pc := upd s.pc t x, refs := s.refs ++ R t, log := s.log ++ L t }
      { b with buf := B, pc := upd b.pc (who t) x, refs := b.refs ++ R (who t), log := b.log ++ L (who t) } := by
  have := h.put t B x R L hR hL s.ub
  have e := h.ub
  cases s; cases b
  dsimp only at e this ⊢
  rw [← e]; exact this

theorem Alias.broken' {who : Tid → Tid} {n : Nat} {s b : St T} (h : Alias who n s b) :
    Alias who n { s with ub := true } { b with buf := s.buf, ub := true } :=
  ⟨rfl, rfl, h.pc, h.refs, h.log, h.inj, h.known, h.fresh⟩

theorem Alias.tick {who : Tid → Tid} {n : Nat} {s b : St T} (h : Alias who n s b) (t : Tid) : Alias who n (tick s t) (tick b (who t)) := by
  unfold Ring.tick
  rw [← h.pc t, ← h.buf]
  cases s.pc t with
  | idle => exact h
  | putSpin v => 
    dsimp only
    split
    · exact h
    · exact h.move t _ _
  | putCheck v => 
    dsimp only
    split
    · exact h.say t _ _ (fun u => [.lin u (.put v) .full]) (fun _ _ => rfl)
    · exact h.move t _ _
  | putFull v => exact h.say t _ _ (fun u => [.ret u .full]) (fun _ _ => rfl)
  | putCapture v => 
    dsimp only
    split
    · exact h.broken'
    · split
      · exact h.move t _ _
      · exact h.move t _ _
  | putRetry v => exact h.move t _ _
  | putAdvance v k => 
    dsimp only
    split
    · exact h.broken'
    · exact h.move t _ _
  | putCount v k => 
    dsimp only
    split
    · exact h.say t _ _ (fun u => [.lin u (.put v) .stored]) (fun _ _ => rfl)
    · exact h.broken'
  | putUnlock v k => exact h.move t _ _
  | putInit v k => exact h.move t _ _
  | putBuild v k =>
    exact h.hold t _ _ (fun u => [{ owner := u, slot := k, fromGet := false, val := v }]) (fun _ _ => rfl) (fun u => [.ret u .stored]) (fun _ _ => rfl)
  | getSpin => 
    dsimp only
    split
    · exact h
    · exact h.move t _ _
  | getCheck => 
    dsimp only
    split
    · exact h.say t _ _ (fun u => [.lin u .get .empty]) (fun _ _ => rfl)
    · exact h.move t _ _
  | getEmpty => exact h.say t _ _ (fun u => [.ret u .empty]) (fun _ _ => rfl)
  | getCapture => 
    dsimp only
    split
    · exact h.broken'
    · split
      · exact h.move t _ _
      · exact h.move t _ _
  | getRetry => exact h.move t _ _
  | getAdvance k => 
    dsimp only
    split
    · exact h.broken'
    · exact h.move t _ _
  | getCount k =>
    dsimp only
    split
    · exact h.broken'
    · split
      · exact h.broken'
      · rename_i v _; exact h.say t _ _ (fun u => [.lin u .get (.got v)]) (fun _ _ => rfl)
  | getUnlock k v =>
    exact h.hold t _ _ (fun u => [{ owner := u, slot := k, fromGet := true, val := v }]) (fun _ _ => rfl) (fun u => [.ret u (.got v)]) (fun _ _ => rfl)
  | obsSpin c => 
    dsimp only
    split
    · exact h
    · exact h.move t _ _
  | obsRead c => exact h.say t _ _ (fun u => [.lin u c (.num _)]) (fun _ _ => rfl)
  | obsUnlock c k => exact h.say t _ _ (fun u => [.ret u (.num k)]) (fun _ _ => rfl)

theorem Alias.call {who : Tid → Tid} {n : Nat} {s b : St T} (h : Alias who n s b) (t : Tid) (c : Call T) :
    Alias who n (call s t c) (call b (who t) c) := by
  unfold Ring.call
  rw [← h.pc t]
  cases hp : s.pc t with
  | idle =>
    dsimp only
    have hL : ∀ (x : PC T), Alias who n { s with pc := upd s.pc t x, log := s.log ++ [.inv t c] }
        { b with pc := upd b.pc (who t) x, log := b.log ++ [.inv (who t) c] } := by
      intro x
      have := h.say t s.buf x (fun u => [.inv u c]) (fun _ _ => rfl)
      have e := h.buf
      cases s; cases b
      dsimp only at e this ⊢
      subst e; exact this
    exact hL _
  | _ => exact h

theorem plain_get {a b : List (Ref T)} (h : a.map plain = b.map plain) (i : Nat) :
    (a[i]? = none ∧ b[i]? = none) ∨ ∃ r r', a[i]? = some r ∧ b[i]? = some r' ∧ r.slot = r'.slot := by
  have : (a.map plain)[i]? = (b.map plain)[i]? := by rw [h]
  rw [List.getElem?_map, List.getElem?_map] at this
  cases ha : a[i]? with
  | none => rw [ha] at this; cases hb : b[i]? with
    | none => exact .inl ⟨rfl, rfl⟩
    | some r => rw [hb] at this; cases this
  | some r => rw [ha] at this; cases hb : b[i]? with
    | none => rw [hb] at this; cases this
    | some r' =>
      rw [hb] at this
      exact .inr ⟨r, r', rfl, rfl, congrArg Prod.fst (Option.some.inj this)⟩

theorem map_eraseIdx {α β : Type} (f : α → β) (l : List α) (i : Nat) : (l.eraseIdx i).map f = (l.map f).eraseIdx i := by
  induction l generalizing i with
  | nil => rfl
  | cons a l ih => cases i with
    | zero => rfl
    | succ i => simp [ih]

theorem Alias.drop {who : Tid → Tid} {n : Nat} {s b : St T} (h : Alias who n s b) (i : Nat) : Alias who n (drop s i) (drop b i) := by
  unfold Ring.drop
  rcases plain_get h.refs i with ⟨h1, h2⟩ | ⟨r, r', h1, h2, e⟩
  · rw [h1, h2]; exact h
  · rw [h1, h2]
    dsimp only
    exact ⟨by dsimp only; rw [e, h.buf], h.ub, h.pc, by dsimp only; rw [map_eraseIdx, map_eraseIdx, h.refs], h.log, h.inj, h.known, h.fresh⟩

/-- an identity nobody uses any more -/
def Retired (who : Tid → Tid) (n : Nat) (d : Tid) : Prop := (∀ t, who t ≠ d) ∧ ∀ m, n ≤ m → d ≠ 2 * m + 1

theorem Alias.act {who : Tid → Tid} {n : Nat} {s b : St T} (h : Alias who n s b) (a : ActT T) :
    ∃ bs who' n', Alias who' n' (actT s a) (exec b bs) ∧ (∀ d, Retired who n d → Retired who' n' d ∧ Asleep d bs) ∧
      ∀ t v k, a = .throw t → s.pc t = .putBuild v k → Retired who' n' (who t) ∧ (exec b bs).pc (who t) = .putBuild v k := by
  cases a with
  | act a =>
    cases a with
    | call t c =>
      exact ⟨[.call (who t) c], who, n, h.call t c, fun d hd => ⟨hd, fun a ha => by rw [List.mem_singleton.1 ha]; trivial⟩, fun _ _ _ e => by cases e⟩
    | step t =>
      exact ⟨[.step (who t)], who, n, h.tick t, fun d hd => ⟨hd, fun a ha => by rw [List.mem_singleton.1 ha]; exact hd.1 t⟩, fun _ _ _ e => by cases e⟩
    | drop i =>
      exact ⟨[.drop i], who, n, h.drop i, fun d hd => ⟨hd, fun a ha => by rw [List.mem_singleton.1 ha]; trivial⟩, fun _ _ _ e => by cases e⟩
  | throw t =>
    have nil : ∀ d, Asleep (T := T) d [] := fun d a ha => by cases ha
    by_cases hp : ∃ v k, s.pc t = .putBuild v k
    · obtain ⟨v, k, hp⟩ := hp
      have hact : actT s (.throw t) = { s with pc := upd s.pc t .idle } := by
        show throwOut s t = _
        unfold throwOut; rw [hp]
      refine ⟨[], upd who t (2 * n + 1), n + 1, ?_, ?_, ?_⟩
      · rw [hact]
        refine ⟨h.buf, h.ub, ?_, h.refs, h.log, ?_, ?_, fun m hm => h.fresh m (by omega)⟩
        · intro u
          show upd s.pc t .idle u = b.pc (upd who t (2 * n + 1) u)
          unfold upd
          by_cases e : u = t
          · rw [if_pos e, if_pos e]; exact (h.fresh n (Nat.le_refl _)).symm
          · rw [if_neg e, if_neg e]; exact h.pc u
        · intro u w e
          unfold upd at e
          by_cases e1 : u = t
          · by_cases e2 : w = t
            · rw [e1, e2]
            · rw [if_pos e1, if_neg e2] at e
              exact absurd e.symm (h.known w n (Nat.le_refl _))
          · by_cases e2 : w = t
            · rw [if_neg e1, if_pos e2] at e
              exact absurd e (h.known u n (Nat.le_refl _))
            · rw [if_neg e1, if_neg e2] at e
              exact h.inj u w e
        · intro u m hm
          unfold upd
          by_cases e1 : u = t
          · rw [if_pos e1]
            have key : ∀ a b : Nat, a + 1 ≤ b → 2 * a + 1 ≠ 2 * b + 1 := by intro a b; omega
            exact key n m hm
          · rw [if_neg e1]; exact h.known u m (by omega)
      · intro d hd
        refine ⟨⟨fun u => ?_, fun m hm => hd.2 m (by omega)⟩, nil d⟩
        unfold upd
        split
        · exact fun e => hd.2 n (Nat.le_refl _) e.symm
        · exact hd.1 u
      · intro t' v' k' e hp'
        cases e
        refine ⟨⟨fun u => ?_, fun m hm => h.known t m (by omega)⟩, ?_⟩
        · unfold upd
          split
          · exact fun e => h.known t n (Nat.le_refl _) e.symm
          · rename_i e1; exact fun e => e1 (h.inj u t e)
        · show b.pc (who t) = _
          rw [← h.pc, hp']
    · have hact : actT s (.throw t) = s := by
        show throwOut s t = s
        unfold throwOut
        split
        · rename_i v k e; exact absurd ⟨v, k, e⟩ hp
        · rfl
      exact ⟨[], who, n, by rw [hact]; exact h, fun d hd => ⟨hd, nil d⟩, fun t' v k e hv => by cases e; exact absurd ⟨v, k, hv⟩ hp⟩

theorem Alias.exec {who : Tid → Tid} {n : Nat} {s b : St T} (h : Alias who n s b) (as : List (ActT T)) :
    ∃ bs who' n', Alias who' n' (execT s as) (exec b bs) ∧ ∀ d, Retired who n d → Retired who' n' d ∧ Asleep d bs := by
  induction as generalizing who n s b with
  | nil => exact ⟨[], who, n, h, fun d hd => ⟨hd, fun a ha => by cases ha⟩⟩
  | cons a as ih =>
    obtain ⟨bs, who1, n1, h1, h2, _⟩ := h.act a
    obtain ⟨cs, who2, n2, h3, h4⟩ := ih h1
    refine ⟨bs ++ cs, who2, n2, by rw [exec_append]; exact h3, fun d hd => ?_⟩
    obtain ⟨k1, k2⟩ := h2 d hd
    obtain ⟨k3, k4⟩ := h4 d k1
    exact ⟨k3, fun a ha => (List.mem_append.1 ha).elim (k2 a) (k4 a)⟩

theorem alias_init (cap : Nat) : Alias (fun t => 2 * t) 0 (init T cap) (init T cap) :=
  ⟨rfl, rfl, fun _ => rfl, rfl, rfl, (fun t u e => by
      have key : ∀ a b : Nat, 2 * a = 2 * b → a = b := by intro a b; omega
      exact key t u e),
    (fun t m _ => by
      have key : ∀ a b : Nat, 2 * a ≠ 2 * b + 1 := by intro a b; omega
      exact key t m), fun _ _ => rfl⟩

theorem getsOf_bare (l : List (Entry T)) : getsOf (l.map bare) = getsOf l := by
  unfold getsOf
  rw [List.filterMap_map]
  congr 1
  funext x
  cases x with
  | lin t c r => cases c <;> cases r <;> rfl
  | _ => rfl

theorem putsOf_bare (l : List (Entry T)) : putsOf none (l.map bare) = putsOf none l := by
  unfold putsOf
  rw [List.filterMap_map]
  congr 1
  funext x
  cases x with
  | lin t c r => cases c <;> cases r <;> simp [bare]
  | _ => rfl

/-! ## what an exception does not do -/

/-- **C90** (part), what stays true in a history in which constructions of elements throw: nothing outside the queue is accessed, no element
that was not constructed is read, no assertion fails, the queue keeps its bounds; what has been taken is the beginning of what was put, in
order; and a live reference denotes a constructed element nobody else has. -/
theorem C90_no_damage_partial (cap : Nat) (hc : 0 < cap) (as : List (ActT T)) :
    (execT (init T cap) as).ub = false ∧ (execT (init T cap) as).buf.size ≤ cap ∧
    getsOf (execT (init T cap) as).log <+: putsOf none (execT (init T cap) as).log ∧
    (∀ r ∈ (execT (init T cap) as).refs, (execT (init T cap) as).buf.item r.slot = some r.val) ∧
    ((execT (init T cap) as).refs.map Ref.slot).Nodup := by
  obtain ⟨bs, who, n, h, _⟩ := (alias_init (T := T) cap).exec as
  obtain ⟨h1, h2, _⟩ := C03_bounds (T := T) cap hc bs
  obtain ⟨q, _, h4⟩ := C01_nothing_lost (T := T) cap hc bs
  obtain ⟨h5, h6, _⟩ := C02_noderef_owns (T := T) cap hc bs
  refine ⟨h.ub.trans h1, by rw [h.buf]; exact h2, ?_, ?_, ?_⟩
  · rw [← getsOf_bare, ← putsOf_bare, h.log, getsOf_bare, putsOf_bare, h4]
    exact ⟨q, rfl⟩
  · intro r hr
    have : plain r ∈ (exec (init T cap) bs).refs.map plain := by rw [← h.refs]; exact List.mem_map_of_mem hr
    obtain ⟨r', hr', e⟩ := List.mem_map.1 this
    have := (h5 r' hr').1
    have e1 : r'.slot = r.slot := congrArg Prod.fst e
    have e2 : r'.val = r.val := congrArg (fun x => x.2.2) e
    rw [h.buf, ← e1, ← e2]; exact this
  · have e : (execT (init T cap) as).refs.map Ref.slot = ((execT (init T cap) as).refs.map plain).map Prod.fst := by
      rw [List.map_map]; rfl
    have e' : (exec (init T cap) bs).refs.map Ref.slot = ((exec (init T cap) bs).refs.map plain).map Prod.fst := by
      rw [List.map_map]; rfl
    rw [e, h.refs, ← e']; exact h6

/-! ## what it does -/

/-- **C90**, refuted: the exception leaves the place of the element taken for ever.  When the oldest element of the queue is one whose
construction throws, then from that moment no `get` of any thread returns, neither with an element nor empty-handed, and no element
leaves the queue, whatever happens afterwards. -/
theorem C90_refuted (cap : Nat) (hc : 0 < cap) (as : List (ActT T)) (hb : (execT (init T cap) as).buf.busy = false) (t : Tid) (v : T)
    (ht : (execT (init T cap) as).pc t = .putBuild v (execT (init T cap) as).buf.popIdx) (later : List (ActT T)) :
    ∃ l, ((execT (init T cap) (as ++ .throw t :: later)).log.map bare) = (execT (init T cap) as).log.map bare ++ l ∧
      (∀ u r, Entry.ret u r ∈ l → r ≠ .empty ∧ ∀ x, r ≠ .got x) ∧
      getsOf (execT (init T cap) (as ++ .throw t :: later)).log = getsOf (execT (init T cap) as).log := by
  obtain ⟨bs, who, n, h, _⟩ := (alias_init (T := T) cap).exec as
  obtain ⟨cs, who1, n1, h1, _, h2⟩ := h.act (.throw t)
  obtain ⟨hr, hp⟩ := h2 t v _ rfl ht
  obtain ⟨ds, who2, n2, h3, h4⟩ := h1.exec later
  obtain ⟨_, hs⟩ := h4 _ hr
  have hx : execT (init T cap) (as ++ .throw t :: later) = execT (actT (execT (init T cap) as) (.throw t)) later := by
    unfold execT; rw [List.foldl_append]; rfl
  have hthrow : (actT (execT (init T cap) as) (.throw t)).buf = (execT (init T cap) as).buf := by
    show (throwOut _ _).buf = _
    unfold throwOut; rw [ht]
  have hlog : (actT (execT (init T cap) as) (.throw t)).log = (execT (init T cap) as).log := by
    show (throwOut _ _).log = _
    unfold throwOut; rw [ht]
  have hj : exec (exec (init T cap) bs) cs = exec (init T cap) (bs ++ cs) := (exec_append _ _ _).symm
  rw [hj] at h1 h3 hp
  have hbuf : (exec (init T cap) (bs ++ cs)).buf = (execT (init T cap) as).buf := by rw [← h1.buf, hthrow]
  obtain ⟨l, e1, e2, e3⟩ := C81_get_refuted (T := T) cap hc (bs ++ cs) (by rw [hbuf]; exact hb) (who t)
    ⟨v, .inr (by rw [hbuf]; exact hp)⟩ ds hs
  have e0 : exec (init T cap) (bs ++ cs ++ ds) = exec (exec (init T cap) (bs ++ cs)) ds := exec_append _ _ _
  rw [e0] at e1 e3
  rw [hx]
  refine ⟨l.map bare, ?_, ?_, ?_⟩
  · rw [h3.log, e1, List.map_append, ← h1.log, hlog]
  · intro u r hm
    obtain ⟨x, hx, e⟩ := List.mem_map.1 hm
    cases x with
    | ret u' r' =>
      have e' : r' = r := by injection e
      subst e'
      exact e2 u' r' hx
    | _ => simp [bare] at e
  · rw [← getsOf_bare, h3.log, getsOf_bare, e3, ← getsOf_bare, ← h1.log, getsOf_bare, hlog]

/-- thread 0 is constructing 7, which will throw; thread 1 has stored 8 behind it, thread 2 is inside `get` -/
def throwRun : List (ActT Nat) :=
  (Act.call 0 (.put 7) :: List.replicate 7 (Act.step 0) ++ Act.call 1 (.put 8) :: List.replicate 8 (Act.step 1) ++ [Act.call 2 .get]).map .act

/-- the hypotheses of `C90_refuted`; after the exception thread 0 puts 9, and the elements 8 and 9 never come out -/
example : (execT (init Nat 3) throwRun).buf.busy = false ∧
    (execT (init Nat 3) throwRun).pc 0 = .putBuild 7 (execT (init Nat 3) throwRun).buf.popIdx ∧
    (execT (init Nat 3) (throwRun ++ .throw 0 :: (.act (.call 0 (.put 9))) :: List.replicate 9 (.act (.step 0)))).buf.size = 3 ∧
    (execT (init Nat 3) (throwRun ++ .throw 0 :: (.act (.call 0 (.put 9))) :: List.replicate 9 (.act (.step 0)))).pc 0 = .idle ∧
    (execT (init Nat 3) (throwRun ++ .throw 0 :: (.act (.call 0 (.put 9))) :: List.replicate 9 (.act (.step 0)))).pc 2 = .getSpin :=
  ⟨rfl, rfl, rfl, rfl, rfl⟩

end Ring
end Soralog
