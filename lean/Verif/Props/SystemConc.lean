import Verif.Proofs.SystemConc
import Verif.Spec.LogCall
import Verif.Props.SystemTree
/-!
# C76, C77, C78: the logging system used by several threads
-/
namespace Soralog
namespace System
namespace Conc

open Hierarchy

/-! ## concrete executions -/

/-- an action of a thread -/
inductive Act where
  | call (t : Tid) (op : Op)
  | configuring (t : Tid)
  | mk (t : Tid) (a : Args)
  | log (t : Tid) (i : Nat) (r : Rec)
  | flush (t : Tid) (i : Nat)
  | step (t : Tid)

def Act.thread : Act → Tid
  | .call t _ | .configuring t | .mk t _ | .log t _ _ | .flush t _ | .step t => t

def act (s : St) : Act → Option St
  | .call t op =>
    if s.pc t = .idle ∧ isMakeGroup op = false then
      match System.step 20 s.sys op with
      | .ret v y => some (s.finish t y op (.ret v))
      | .throw y => some (s.finish t y op .thrown)
      | _ => none
    else none
  | .configuring t => if s.pc t = .idle then some { s with sys := { s.sys with configured := true }, done := s.done ++ [.configuring] } else none
  | .mk t a => if s.pc t = .idle then some (s.goto t a.start) else none
  | .log t i r => if s.pc t = .idle ∧ s.sys.alive i = true then some (s.goto t (.log1 i r)) else none
  | .flush t i => if s.pc t = .idle ∧ s.sys.alive i = true then some (s.goto t (.log4 i)) else none
  | .step t => if s.pc t ≠ .idle then some (step s t) else none

theorem act_exec {s s' : St} {a : Act} (h : act s a = some s') : Exec s s' := by
  cases a with
  | call t op =>
    simp only [act] at h
    split at h
    · rename_i hc
      split at h
      · rename_i v y hs; cases h; exact .call s t op 20 v y hc.1 hc.2 hs
      · rename_i y hs; cases h; exact .failed s t op 20 y hc.1 hc.2 hs
      · cases h
    · cases h
  | configuring t => simp only [act] at h; split at h <;> cases h; exact .configuring s t (by assumption)
  | mk t a => simp only [act] at h; split at h <;> cases h; exact .makeGroup s t a (by assumption)
  | log t i r => simp only [act] at h; split at h <;> cases h; rename_i hc; exact .log s t i r hc.1 hc.2
  | flush t i => simp only [act] at h; split at h <;> cases h; rename_i hc; exact .flush s t i hc.1 hc.2
  | step t => simp only [act] at h; split at h <;> cases h; exact .step s t (by assumption)

theorem step_pc (s : St) (t u : Tid) (h : u ≠ t) : (step s t).pc u = s.pc u := by
  unfold step
  repeat' split
  all_goals first | rfl | exact upd_other _ _ h

theorem act_pc {s s' : St} {a : Act} (h : act s a = some s') (u : Tid) (hu : u ≠ a.thread) : s'.pc u = s.pc u := by
  cases a with
  | call t op =>
    simp only [act] at h
    split at h
    · split at h <;> cases h <;> exact upd_other _ _ hu
    · cases h
  | configuring t => simp only [act] at h; split at h <;> cases h; rfl
  | mk t a => simp only [act] at h; split at h <;> cases h; exact upd_other _ _ hu
  | log t i r => simp only [act] at h; split at h <;> cases h; exact upd_other _ _ hu
  | flush t i => simp only [act] at h; split at h <;> cases h; exact upd_other _ _ hu
  | step t => simp only [act] at h; split at h <;> cases h; exact step_pc s t u hu

def run : List Act → St → Option St
  | [], s => some s
  | a :: as, s => (act s a).bind (run as)

theorem run_reach {as : List Act} {s s' : St} (hr : Reach s) (h : run as s = some s') : Reach s' := by
  induction as generalizing s with
  | nil => cases h; exact hr
  | cons a as ih =>
    simp only [run] at h
    cases ha : act s a with
    | none => rw [ha] at h; cases h
    | some s1 => rw [ha] at h; exact ih (.next hr (act_exec ha)) h

theorem run_pc {as : List Act} {s s' : St} (h : run as s = some s') (u : Tid) (hu : ∀ a ∈ as, u ≠ a.thread) : s'.pc u = s.pc u := by
  induction as generalizing s with
  | nil => cases h; rfl
  | cons a as ih =>
    simp only [run] at h
    cases ha : act s a with
    | none => rw [ha] at h; cases h
    | some s1 =>
      rw [ha] at h
      rw [ih h (fun b hb => hu b (List.mem_cons_of_mem _ hb)), act_pc ha u (hu a List.mem_cons_self)]

theorem getD_run {o : Option St} {d : St} (h : o.isSome = true) : o = some (o.getD d) := by
  cases o with
  | none => cases h
  | some s => rfl

def began : St := init true id

theorem began_reach : Reach began := .init true id fun _ => .refl _

/-! ## C76 -/

/-- **C76**, part: if, while a thread is inside `makeGroup`, no other thread completes a call that changes groups (and the new group is to have
a parent) or re-registers the names `makeGroup` was given, then the calls made so far have the effects and the outcomes they have when made one
after the other, in the order in which they completed.  Missing: `makeGroup` overlapping such a call (refuted below). -/
theorem C76_serial_partial {debug : Bool} {ord : List Nat → List Nat} {s : St} (h : CalmReach debug ord s) :
    Serial (System.new debug ord) s.done s.sys := (calm_reach h).serial

/-- **C76**, part: so the values of groups and loggers are up to date in such executions (C32, C33, C34). -/
theorem C76_up_to_date_partial {debug : Bool} {ord : List Nat → List Nat} {s : St} (h : CalmReach debug ord s) :
    (∀ x p, s.sys.registered x → (s.sys.grp x).parent = some p → (s.sys.grp x).levelOv = false → (s.sys.grp x).level = (s.sys.grp p).level) ∧
    (∀ x p, s.sys.registered x → (s.sys.grp x).parent = some p → (s.sys.grp x).sinkOv = false → (s.sys.grp x).sink = (s.sys.grp p).sink) ∧
    (∀ i, s.sys.alive i = true → s.sys.registered (s.sys.lgr i).group → (s.sys.lgr i).levelOv = false →
      (s.sys.lgr i).level = (s.sys.grp (s.sys.lgr i).group).level) := by
  have hr : System.Reach s.sys := by
    have ho : ∀ l, (ord l).Perm l := by
      induction h with | init ho => exact ho | next _ _ _ ih => exact ih
    exact (calm_reach h).serial.reach (.init debug ord ho)
  exact ⟨fun x p hx hp hov => C32_group_levels_up_to_date hr hx hp hov, fun x p hx hp hov => C33_group_sinks_up_to_date hr hx hp hov,
    fun i hi hg => (C34_logger_properties_up_to_date hr hi hg).1⟩

/-- **C76**, part: in particular from the moment on when groups are made by nobody: if no thread is inside `makeGroup`, a step disturbs nothing. -/
theorem C76_calm_without_makeGroup {s s' : St} (h : ∀ t, making (s.pc t) = none) : Undisturbing s s' := by
  intro t a op o h1; rw [h t] at h1; cases h1

def calmActs : List Act :=
  [.call 1 (.makeSink ['s']), .mk 1 ⟨['r'], none, some ['s'], some .info⟩, .step 1, .step 1, .step 1,
   .mk 1 ⟨['a'], some ['r'], none, none⟩, .mk 2 ⟨['b'], some ['r'], none, some .debug⟩, .step 1, .step 2, .step 1, .step 2, .step 2, .step 2,
   .call 3 (.makeSink ['t']), .step 1, .step 1, .step 1, .step 2, .step 2, .step 1]

def calmRun : List Act → St → Option St
  | [], s => some s
  | a :: as, s =>
    (act s a).bind fun s' =>
      if [1, 2, 3].all (fun t => match making (s.pc t), s'.done.getLast? with
        | some b, some (.call op _) => decide (making (s'.pc t) ≠ some b) || decide (s'.done.length = s.done.length) ||
            match op with
            | .makeSink n => decide (b.sink ≠ some n)
            | .makeGroup n .. => decide (b.parent ≠ some n)
            | _ => false
        | _, _ => true) then calmRun as s' else none

theorem calmRun_reach {debug : Bool} {ord : List Nat → List Nat} {as : List Act} {s s' : St} (hr : CalmReach debug ord s)
    (hx : ∀ t, t ≠ 1 → t ≠ 2 → t ≠ 3 → s.pc t = .idle) (ha : ∀ a ∈ as, a.thread = 1 ∨ a.thread = 2 ∨ a.thread = 3)
    (h : calmRun as s = some s') : CalmReach debug ord s' := by
  induction as generalizing s with
  | nil => cases h; exact hr
  | cons a as ih =>
    simp only [calmRun] at h
    cases hact : act s a with
    | none => rw [hact] at h; cases h
    | some s1 =>
      rw [hact] at h
      simp only [Option.bind_some] at h
      split at h
      · rename_i hall
        have hth := ha a List.mem_cons_self
        refine ih (.next hr (act_exec hact) ?_) ?_ (fun b hb => ha b (List.mem_cons_of_mem _ hb)) h
        · intro t b op o h1 h2 h3
          have ht : t ∈ [1, 2, 3] := by
            by_cases e1 : t = 1
            · simp [e1]
            · by_cases e2 : t = 2
              · simp [e2]
              · by_cases e3 : t = 3
                · simp [e3]
                · rw [hx t e1 e2 e3] at h1; cases h1
          have := List.all_eq_true.1 hall t ht
          rw [h1, h3] at this
          simp only [List.getLast?_concat, h2, List.length_append, List.length_singleton, Bool.or_eq_true, decide_eq_true_eq] at this
          rcases this with (h | h) | h
          · exact absurd rfl h
          · omega
          · cases op with
            | makeSink n => simpa [disturbs] using h
            | makeGroup n => simpa [disturbs] using h
            | _ => cases h
        · intro t e1 e2 e3
          rw [act_pc hact t (by rintro rfl; rcases hth with e | e | e <;> contradiction)]
          exact hx t e1 e2 e3
      · cases h

/-- two threads make children of `r` at the same time while a third one registers a sink: nothing is disturbed -/
example : ∃ s, CalmReach true id s ∧ s.done.length = 5 ∧ (s.sys.groups.find ['a'], s.sys.groups.find ['b']) = (some 2, some 1) ∧
    (s.sys.grp 2).level = .info ∧ (s.sys.grp 1).level = .debug := by
  have h : (calmRun calmActs began).isSome = true := by decide +kernel
  exact ⟨_, calmRun_reach (.init fun _ => .refl _) (fun _ _ _ _ => rfl) (by decide) (getD_run (d := began) h),
    by decide +kernel, by decide +kernel, by decide +kernel, by decide +kernel⟩

/-- thread 1 makes a child of `r`; after it has read the level of `r`, thread 2 changes it -/
def staleActs : List Act :=
  [.call 1 (.makeSink ['s']), .mk 1 ⟨['r'], none, some ['s'], some .info⟩, .step 1, .step 1, .step 1,
   .mk 1 ⟨['a'], some ['r'], none, none⟩, .step 1, .step 1, .step 1, .call 2 (.setLevelOfGroup ['r'] .trace), .step 1, .step 1, .step 1]

def stale : St := (run staleActs began).getD began

/-- **C76 is false**, and with it C32 for several threads: an execution after which no call is running, in which the group `a` has the level its
parent `r` had before `setLevelOfGroup("r", trace)` and is not marked as having its own; no order of the calls explains this state. -/
theorem C76_refuted : ∃ s, Reach s ∧ (∀ t, s.pc t = .idle) ∧
    (∃ x p, s.sys.groups.find ['a'] = some x ∧ (s.sys.grp x).parent = some p ∧ (s.sys.grp x).levelOv = false ∧
      (s.sys.grp x).level ≠ (s.sys.grp p).level) ∧
    ∀ debug ord, (∀ l, (ord l).Perm l) → ∀ ds, ds.Perm s.done → ¬ Serial (System.new debug ord) ds s.sys := by
  have h : (run staleActs began).isSome = true := by decide +kernel
  have hg : run staleActs began = some stale := getD_run h
  have hr := run_reach began_reach hg
  have hx : ∃ x p, stale.sys.groups.find ['a'] = some x ∧ (stale.sys.grp x).parent = some p ∧
      (stale.sys.grp x).levelOv = false ∧ (stale.sys.grp x).level ≠ (stale.sys.grp p).level :=
    ⟨1, 0, by decide +kernel, by decide +kernel, by decide +kernel, by decide +kernel⟩
  refine ⟨_, hr, fun t => ?_, hx, fun debug ord ho ds _ hs => ?_⟩
  · by_cases e1 : t = 1
    · subst e1; decide +kernel
    · by_cases e2 : t = 2
      · subst e2; decide +kernel
      · rw [run_pc hg t]
        · rfl
        · intro a ha
          have : a.thread = 1 ∨ a.thread = 2 := by
            revert a; decide
          rcases this with e | e <;> rw [e] <;> assumption
  · obtain ⟨x, p, h1, h2, h3, h4⟩ := hx
    exact h4 (C32_group_levels_up_to_date (hs.reach (.init debug ord ho)) ⟨_, h1⟩ h2 h3)

/-! ## C77 -/

theorem exec_other {s s' : St} (h : Exec s s') : ∃ t, (∀ u, u ≠ t → s'.pc u = s.pc u ∧ callsOf u s'.out = callsOf u s.out) ∧
    (s.pc t ≠ .idle → s' = step s t) := by
  cases h with
  | call t op fuel v sys' hi hm hc => exact ⟨t, fun u hu => ⟨upd_other _ _ hu, rfl⟩, fun h => absurd hi h⟩
  | failed t op fuel sys' hi hm hc => exact ⟨t, fun u hu => ⟨upd_other _ _ hu, rfl⟩, fun h => absurd hi h⟩
  | configuring t hi => exact ⟨t, fun u hu => ⟨rfl, rfl⟩, fun h => absurd hi h⟩
  | makeGroup t a hi => exact ⟨t, fun u hu => ⟨upd_other _ _ hu, rfl⟩, fun h => absurd hi h⟩
  | log t i r hi ha => exact ⟨t, fun u hu => ⟨upd_other _ _ hu, rfl⟩, fun h => absurd hi h⟩
  | flush t i hi ha => exact ⟨t, fun u hu => ⟨upd_other _ _ hu, rfl⟩, fun h => absurd hi h⟩
  | step t hi =>
    refine ⟨t, fun u hu => ⟨step_pc s t u hu, ?_⟩, fun _ => rfl⟩
    have hne : ∀ c : SinkCall, c.thread = t → callsOf u (s.out ++ [c]) = callsOf u s.out := by
      intro c hc
      unfold callsOf
      rw [List.filter_append, List.filter_cons_of_neg (by rw [hc]; simpa using fun e => hu e.symm)]
      simp
    unfold step
    repeat' split
    all_goals first | rfl | exact hne _ rfl

/-- what has happened so far in a log call -/
def LogInv (t : Tid) (i : Nat) (r : Rec) (seen : List Sys) (o : List SinkCall) : PC → Prop
  | .log1 j r' => j = i ∧ r' = r ∧ o = []
  | .log2 j r' => j = i ∧ r' = r ∧ o = [] ∧ ∃ y ∈ seen, passes (y.lgr i).level r
  | .log3 j => j = i ∧ ∃ y ∈ seen, ∃ z ∈ seen, ∃ k, passes (y.lgr i).level r ∧ (z.lgr i).sink = some k ∧ o = [.push t k r]
  | .log4 j => j = i ∧ ∃ y ∈ seen, ∃ z ∈ seen, ∃ w ∈ seen, ∃ k, passes (y.lgr i).level r ∧ (z.lgr i).sink = some k ∧
      Level.critical ≤ (w.lgr i).level ∧ o = [.push t k r]
  | .idle => (∃ y ∈ seen, ¬ passes (y.lgr i).level r ∧ o = []) ∨
      (∃ y ∈ seen, ∃ z ∈ seen, passes (y.lgr i).level r ∧ (z.lgr i).sink = none ∧ o = [.null t]) ∨
      (∃ y ∈ seen, ∃ z ∈ seen, ∃ w ∈ seen, ∃ k, passes (y.lgr i).level r ∧ (z.lgr i).sink = some k ∧
        ((¬ Level.critical ≤ (w.lgr i).level ∧ o = [.push t k r]) ∨
          (Level.critical ≤ (w.lgr i).level ∧ ∃ x ∈ seen, ((x.lgr i).sink = none ∧ o = [.push t k r, .null t]) ∨
            ∃ k', (x.lgr i).sink = some k' ∧ o = [.push t k r, .flush t k'])))
  | _ => False

theorem LogInv.mono {t : Tid} {i : Nat} {r : Rec} {seen seen' : List Sys} {o : List SinkCall} {p : PC} (h : LogInv t i r seen o p)
    (hs : ∀ y ∈ seen, y ∈ seen') : LogInv t i r seen' o p := by
  cases p with
  | idle =>
    rcases h with ⟨y, h1, h2⟩ | ⟨y, h1, z, h2, h3⟩ | ⟨y, h1, z, h2, w, h3, k, h4, h5, h6⟩
    · exact .inl ⟨y, hs y h1, h2⟩
    · exact .inr (.inl ⟨y, hs y h1, z, hs z h2, h3⟩)
    · refine .inr (.inr ⟨y, hs y h1, z, hs z h2, w, hs w h3, k, h4, h5, ?_⟩)
      rcases h6 with h6 | ⟨h6, x, h7, h8⟩
      · exact .inl h6
      · exact .inr ⟨h6, x, hs x h7, h8⟩
  | log1 j r' => exact h
  | log2 j r' => obtain ⟨a, b, c, y, h1, h2⟩ := h; exact ⟨a, b, c, y, hs y h1, h2⟩
  | log3 j => obtain ⟨a, y, h1, z, h2, h3⟩ := h; exact ⟨a, y, hs y h1, z, hs z h2, h3⟩
  | log4 j => obtain ⟨a, y, h1, z, h2, w, h3, h4⟩ := h; exact ⟨a, y, hs y h1, z, hs z h2, w, hs w h3, h4⟩
  | _ => exact h

theorem During.last {t : Tid} {i : Nat} {r : Rec} {s0 s : St} {seen : List Sys} (h : During t i r s0 seen s) : s.sys ∈ seen := by
  cases h with
  | start => exact List.mem_singleton.2 rfl
  | next => exact List.mem_append_right _ (List.mem_singleton.2 rfl)

theorem during_inv {t : Tid} {i : Nat} {r : Rec} {s0 s : St} {seen : List Sys} (h : During t i r s0 seen s) :
    ∃ o, callsOf t s.out = callsOf t s0.out ++ o ∧ LogInv t i r seen o (s.pc t) := by
  induction h with
  | start hi ha =>
    refine ⟨[], (List.append_nil _).symm, ?_⟩
    show LogInv t i r _ [] (upd s0.pc t _ t)
    rw [upd_same]
    exact ⟨rfl, rfl, rfl⟩
  | @next seen s s' hd hn he ih =>
    obtain ⟨o, h1, h2⟩ := ih
    have hlast := hd.last
    obtain ⟨u, hu1, hu2⟩ := exec_other he
    by_cases e : t = u
    · subst e
      obtain rfl := hu2 hn
      have hadd : ∀ c : SinkCall, c.thread = t → callsOf t (s.out ++ [c]) = callsOf t s0.out ++ (o ++ [c]) := by
        intro c hc
        rw [← List.append_assoc, ← h1]
        unfold callsOf
        rw [List.filter_append]
        congr 1
        simp [hc]
      have hm : ∀ {y}, y ∈ seen → ∀ z : Sys, y ∈ seen ++ [z] := fun h z => List.mem_append_left _ h
      unfold step
      cases hpc : s.pc t with
      | idle => exact absurd hpc hn
      | log1 j r' =>
        rw [hpc] at h2
        obtain ⟨rfl, rfl, rfl⟩ := h2
        refine ⟨[], h1, ?_⟩
        show LogInv _ _ _ _ _ (upd s.pc t _ t)
        rw [upd_same]
        by_cases hpass : r'.level ≤ (s.sys.lgr j).level ∧ r'.level ≠ .off ∧ r'.level ≠ .ignore
        · rw [if_pos hpass]; exact ⟨rfl, rfl, rfl, s.sys, hm hlast _, hpass⟩
        · rw [if_neg hpass]; exact .inl ⟨s.sys, hm hlast _, hpass, rfl⟩
      | log2 j r' =>
        rw [hpc] at h2
        obtain ⟨rfl, rfl, rfl, y, hy, hp⟩ := h2
        dsimp only
        split
        · rename_i hsk
          refine ⟨[.null t], hadd _ rfl, ?_⟩
          show LogInv _ _ _ _ _ (upd s.pc t _ t)
          rw [upd_same]
          exact .inr (.inl ⟨y, hm hy _, s.sys, hm hlast _, hp, hsk, rfl⟩)
        · rename_i k hsk
          refine ⟨[.push t k r'], hadd _ rfl, ?_⟩
          show LogInv _ _ _ _ _ (upd s.pc t _ t)
          rw [upd_same]
          exact ⟨rfl, y, hm hy _, s.sys, hm hlast _, k, hp, hsk, rfl⟩
      | log3 j =>
        rw [hpc] at h2
        obtain ⟨rfl, y, hy, z, hz, k, hp, hsk, rfl⟩ := h2
        refine ⟨_, h1, ?_⟩
        show LogInv _ _ _ _ _ (upd s.pc t _ t)
        rw [upd_same]
        by_cases hc : Level.critical ≤ (s.sys.lgr j).level
        · rw [if_pos hc]; exact ⟨rfl, y, hm hy _, z, hm hz _, s.sys, hm hlast _, k, hp, hsk, hc, rfl⟩
        · rw [if_neg hc]; exact .inr (.inr ⟨y, hm hy _, z, hm hz _, s.sys, hm hlast _, k, hp, hsk, .inl ⟨hc, rfl⟩⟩)
      | log4 j =>
        rw [hpc] at h2
        obtain ⟨rfl, y, hy, z, hz, w, hw, k, hp, hsk, hc, rfl⟩ := h2
        dsimp only
        split
        · rename_i hs4
          refine ⟨_, hadd _ rfl, ?_⟩
          show LogInv _ _ _ _ _ (upd s.pc t _ t)
          rw [upd_same]
          exact .inr (.inr ⟨y, hm hy _, z, hm hz _, w, hm hw _, k, hp, hsk, .inr ⟨hc, s.sys, hm hlast _, .inl ⟨hs4, rfl⟩⟩⟩)
        · rename_i k' hs4
          refine ⟨_, hadd _ rfl, ?_⟩
          show LogInv _ _ _ _ _ (upd s.pc t _ t)
          rw [upd_same]
          exact .inr (.inr ⟨y, hm hy _, z, hm hz _, w, hm hw _, k, hp, hsk, .inr ⟨hc, s.sys, hm hlast _, .inr ⟨k', hs4, rfl⟩⟩⟩)
      | _ => rw [hpc] at h2; exact h2.elim
    · obtain ⟨h3, h4⟩ := hu1 t e
      exact ⟨o, h4.trans h1, by rw [h3]; exact h2.mono fun y hy => List.mem_append_left _ hy⟩

/-- **C77**, part: whatever other threads do, a log call passes its message on at most once; it goes to a sink the logger had during the call,
because of a level the logger had during the call, and not passing it on is because of such a level, too.  Missing: that the level and the sink are
those of one moment (refuted below). -/
theorem C77_at_most_once_partial {t : Tid} {i : Nat} {r : Rec} {s0 s : St} {seen : List Sys} (h : During t i r s0 seen s) (hr : s.pc t = .idle) :
    ∃ o, callsOf t s.out = callsOf t s0.out ++ o ∧
      ((o = [] ∧ ∃ y ∈ seen, ¬ passes (y.lgr i).level r) ∨
       (∃ rest, o = .null t :: rest ∧ (∃ y ∈ seen, passes (y.lgr i).level r) ∧ (∃ z ∈ seen, (z.lgr i).sink = none)) ∨
       (∃ k rest, o = .push t k r :: rest ∧ (∃ y ∈ seen, passes (y.lgr i).level r) ∧ (∃ z ∈ seen, (z.lgr i).sink = some k) ∧
         (rest = [] ∨ rest = [.null t] ∨ ∃ k', rest = [.flush t k'] ∧ ∃ w ∈ seen, (w.lgr i).sink = some k'))) := by
  obtain ⟨o, h1, h2⟩ := during_inv h
  rw [hr] at h2
  refine ⟨o, h1, ?_⟩
  rcases h2 with ⟨y, hy, hp, rfl⟩ | ⟨y, hy, z, hz, hp, hk, rfl⟩ | ⟨y, hy, z, hz, w, hw, k, hp, hk, h⟩
  · exact .inl ⟨rfl, y, hy, hp⟩
  · exact .inr (.inl ⟨[], rfl, ⟨y, hy, hp⟩, ⟨z, hz, hk⟩⟩)
  · rcases h with ⟨_, rfl⟩ | ⟨_, x, hx, ⟨_, rfl⟩ | ⟨k', hk', rfl⟩⟩
    · exact .inr (.inr ⟨k, [], rfl, ⟨y, hy, hp⟩, ⟨z, hz, hk⟩, .inl rfl⟩)
    · exact .inr (.inr ⟨k, _, rfl, ⟨y, hy, hp⟩, ⟨z, hz, hk⟩, .inr (.inl rfl)⟩)
    · exact .inr (.inr ⟨k, _, rfl, ⟨y, hy, hp⟩, ⟨z, hz, hk⟩, .inr (.inr ⟨k', rfl, x, hx, hk'⟩)⟩)

/-- **C77**, part: if level and sink of the logger stay the same during the call, whatever else happens, the call does what it does alone. -/
theorem C77_unchanged_partial {t : Tid} {i : Nat} {r : Rec} {s0 s : St} {seen : List Sys} (h : During t i r s0 seen s) (hr : s.pc t = .idle)
    {l : Level} {k : Option Nat} (hl : ∀ y ∈ seen, (y.lgr i).level = l ∧ (y.lgr i).sink = k) :
    callsOf t s.out = callsOf t s0.out ++ expected t l k r := by
  obtain ⟨o, h1, h2⟩ := during_inv h
  rw [hr] at h2
  rw [h1]
  congr 1
  unfold expected
  rcases h2 with ⟨y, hy, hp, rfl⟩ | ⟨y, hy, z, hz, hp, hk, rfl⟩ | ⟨y, hy, z, hz, w, hw, q, hp, hk, h⟩
  · rw [(hl y hy).1] at hp; rw [if_neg hp]
  · rw [(hl y hy).1] at hp; rw [(hl z hz).2] at hk; rw [if_pos hp, hk]
  · rw [(hl y hy).1] at hp; rw [(hl z hz).2] at hk; rw [if_pos hp, hk]
    rcases h with ⟨hc, rfl⟩ | ⟨hc, x, hx, h⟩
    · rw [(hl w hw).1] at hc; simp [hc]
    · rw [(hl w hw).1] at hc
      rcases h with ⟨hx', rfl⟩ | ⟨k', hx', rfl⟩
      · rw [(hl x hx).2, hk] at hx'; cases hx'
      · rw [(hl x hx).2, hk] at hx'; cases hx'; simp [hc]

/-- the states of the system on the way -/
def trace : List Act → St → Option (List Sys × St)
  | [], s => some ([], s)
  | a :: as, s => (act s a).bind fun s' => (trace as s').map fun p => (s'.sys :: p.1, p.2)

theorem getD_trace {o : Option (List Sys × St)} {d : List Sys × St} (h : o.isSome = true) : o = some (o.getD d) := by
  cases o with
  | none => cases h
  | some s => rfl

def busy (t : Tid) : List Act → St → Bool
  | [], _ => true
  | a :: as, s => decide (s.pc t ≠ .idle) && match act s a with | some s' => busy t as s' | none => true

theorem trace_during {t : Tid} {i : Nat} {r : Rec} {s0 : St} {as : List Act} {s : St} {seen : List Sys} (h : During t i r s0 seen s)
    (hb : busy t as s = true) {p : List Sys × St} (hp : trace as s = some p) : During t i r s0 (seen ++ p.1) p.2 := by
  induction as generalizing s seen p with
  | nil => cases hp; simpa using h
  | cons a as ih =>
    simp only [trace] at hp
    cases ha : act s a with
    | none => rw [ha] at hp; cases hp
    | some s1 =>
      rw [ha] at hp
      simp only [busy, ha, Bool.and_eq_true, decide_eq_true_eq] at hb
      simp only [Option.bind_some] at hp
      cases hq : trace as s1 with
      | none => rw [hq] at hp; cases hp
      | some q =>
        rw [hq] at hp
        cases hp
        have := ih (.next h hb.1 (act_exec ha)) hb.2 hq
        rwa [List.append_assoc] at this

/-- sinks `s` (number 1) and `t` (number 2), groups `r` (debug, `s`) and `q` (info, `t`), logger `x` of `r` -/
def logActs : List Act :=
  [.configuring 1, .call 1 (.makeSink ['s']), .call 1 (.makeSink ['t']),
   .mk 1 ⟨['r'], none, some ['s'], some .debug⟩, .step 1, .step 1, .step 1,
   .mk 1 ⟨['q'], none, some ['t'], some .info⟩, .step 1, .step 1, .step 1, .call 1 (.getLogger ['x'] ['r'] none none)]

def logged : St := (run logActs began).getD began

theorem logged_reach : Reach logged := by
  unfold logged
  cases h : run logActs began with
  | none => exact began_reach
  | some s => exact run_reach began_reach h

def aDebug : Rec := ⟨.debug, ['!']⟩

/-- thread 1 logs at debug; between its look at the level and its look at the sink, thread 2 moves the logger to `q` -/
def tornActs : List Act := [.step 1, .call 2 (.setGroupOfLogger ['x'] ['q']), .step 1, .step 1, .step 1]

/-- **C77 is false**: a debug message goes to the sink `t`, though at every moment the logger either has the sink `s`, or the level info. -/
theorem C77_refuted : ∃ (s0 s : St) (seen : List Sys), Reach s0 ∧ During 1 0 aDebug s0 seen s ∧ s.pc 1 = .idle ∧ s0.out = [] ∧
    (∃ k, SinkCall.push 1 k aDebug ∈ callsOf 1 s.out ∧ ∀ y ∈ seen, (y.lgr 0).sink ≠ some k ∨ ¬ passes (y.lgr 0).level aDebug) ∧
    ∀ y ∈ seen, callsOf 1 s.out ≠ expected 1 (y.lgr 0).level (y.lgr 0).sink aDebug := by
  have h : (trace tornActs (logged.goto 1 (.log1 0 aDebug))).isSome = true := by decide +kernel
  have hd := trace_during (During.start (t := 1) (i := 0) (r := aDebug) (s0 := logged) (by decide +kernel) (by decide +kernel))
    (as := tornActs) (by decide +kernel) (getD_trace (d := ([], began)) h)
  exact ⟨logged, _, _, logged_reach, hd, by decide +kernel, by decide +kernel, ⟨2, by decide +kernel, by decide +kernel⟩, by decide +kernel⟩

/-- a call during which nothing of the logger changes, although another thread changes the group `q` meanwhile -/
example : ∃ (s : St) (seen : List Sys), During 1 0 aDebug logged seen s ∧ s.pc 1 = .idle ∧
    (∀ y ∈ seen, (y.lgr 0).level = .debug ∧ (y.lgr 0).sink = some 1) ∧ callsOf 1 s.out = [.push 1 1 aDebug, .flush 1 1] := by
  have h : (trace [.step 1, .call 2 (.setLevelOfGroup ['q'] .off), .step 1, .step 1, .step 1] (logged.goto 1 (.log1 0 aDebug))).isSome = true := by
    decide +kernel
  have hd := trace_during (During.start (t := 1) (i := 0) (r := aDebug) (s0 := logged) (by decide +kernel) (by decide +kernel))
    (as := [.step 1, .call 2 (.setLevelOfGroup ['q'] .off), .step 1, .step 1, .step 1]) (by decide +kernel) (getD_trace (d := ([], began)) h)
  exact ⟨_, _, hd, by decide +kernel, by decide +kernel, by decide +kernel⟩

/-! ## C78 -/

/-- **C78**: whatever any number of threads call at the same time, at every moment: two live loggers have different names and a live logger is
found under its name; a registered name leads to an existing group of that name (or is `*`), to an existing sink of that name; parents, groups and
sinks referred to exist; and no chain of parents closes except at a group that is its own parent. -/
theorem C78_structure {s : St} (h : Reach s) :
    (∀ i j, s.sys.alive i = true → s.sys.alive j = true → (s.sys.lgr i).name = (s.sys.lgr j).name → i = j) ∧
    (∀ i, s.sys.alive i = true → s.sys.loggers.find (s.sys.lgr i).name = some i) ∧
    (∀ n g, s.sys.groups.find n = some g → g < s.sys.ngroups ∧ (n = star ∨ (s.sys.grp g).name = n)) ∧
    (∀ n k, s.sys.sinks.find n = some k → k < s.sys.nsinks ∧ s.sys.sinkName k = n) ∧
    (∀ g, g < s.sys.ngroups → (∀ p, (s.sys.grp g).parent = some p → p < s.sys.ngroups) ∧ ∀ k, (s.sys.grp g).sink = some k → k < s.sys.nsinks) ∧
    (∀ i, s.sys.alive i = true → (s.sys.lgr i).group < s.sys.ngroups ∧ ∀ k, (s.sys.lgr i).sink = some k → k < s.sys.nsinks) ∧
    (∀ g, g < s.sys.ngroups → Ancestor s.sys.parent g g → s.sys.parent g = some g) := by
  have hS := struct_reach h
  have hw := hS.wf
  refine ⟨fun i j hi hj hn => ?_, fun i hi => (hw.live i hi).2, fun n g hg => ⟨hw.gLt n g hg, hw.gName n g hg⟩, hw.kLt,
    fun g hg => ⟨fun p hp => hw.pLt g p hg hp, fun k hk => hw.gsLt g k hg hk⟩,
    fun i hi => ⟨hw.lgLt i (hw.live i hi).1, fun k hk => hw.lsLt i k (hw.live i hi).1 hk⟩, fun g hg hc => ?_⟩
  · have h1 := (hw.live i hi).2
    rw [hn, (hw.live j hj).2] at h1
    cases h1; rfl
  · obtain ⟨n, hn⟩ := hS.ends g hg
    exact ends_cycle hn hc

/-- **C78**: and as long as no group is its own parent, every call ends. -/
theorem C78_calls_end {s : St} (h : Reach s) (hs : ∀ x, s.sys.parent x ≠ some x) (op : Op) {fuel : Nat} (hf : s.sys.ngroups < fuel) :
    System.step fuel s.sys op ≠ .diverge :=
  step_ends (struct_reach h).wf hs (struct_reach h).ends op hf

/-- a bound on the steps a thread still needs -/
def remaining : PC → Nat
  | .idle => 0
  | .mkParent _ => 6
  | .mkInheritSink .. => 5
  | .mkInheritLevel .. => 4
  | .mkSink .. => 3
  | .mkLevel .. => 2
  | .mkInsert .. => 1
  | .log1 .. => 4
  | .log2 .. => 3
  | .log3 .. => 2
  | .log4 .. => 1

/-- **C78**: a thread inside `makeGroup` or a log call needs at most six steps of its own, whatever the others do. -/
theorem C78_steps_bounded (s : St) (t : Tid) (h : s.pc t ≠ .idle) : remaining ((step s t).pc t) < remaining (s.pc t) ∧ remaining (s.pc t) ≤ 6 := by
  unfold step
  cases hpc : s.pc t <;> dsimp only <;> (try exact absurd hpc h) <;> (repeat' split) <;>
    (first
      | (show remaining (upd s.pc t _ t) < _ ∧ _; rw [upd_same]; first | (constructor <;> decide) | (constructor <;> simp [remaining]) | (constructor <;> (try split) <;> simp [remaining])))

/-- after the execution of `C76_refuted` and more calls of two threads -/
example : ∃ s, Reach s ∧ s.done.length = 8 ∧ s.sys.alive 0 = true ∧ s.sys.groups.find ['q'] = some 1 ∧ 0 < s.out.length := by
  have h : (run (logActs ++ [.log 1 0 aDebug, .step 1, .call 2 (.setGroupOfLogger ['x'] ['q']), .step 1, .call 2 (.drop 5)]) began).isSome = true := by
    decide +kernel
  exact ⟨_, run_reach began_reach (getD_run (d := began) h), by decide +kernel, by decide +kernel, by decide +kernel, by decide +kernel⟩

end Conc
end System
end Soralog
