import Verif.Props.ManyLock
import Verif.Props.SystemMore
import Verif.Spec.Serial
import Verif.Props.Render
/-!
# C99: several threads do nothing undefined
-/
namespace Soralog
namespace System
namespace Conc

/-- every group created so far, and every group under construction, has a parent or names its sink -/
structure RootsNamed (s : St) : Prop where
  done : ∀ n p k l o, Done.call (.makeGroup n p k l) o ∈ s.done → p.isSome = true ∨ k.isSome = true
  pending : ∀ t a, making (s.pc t) = some a → a.parent.isSome = true ∨ a.sink.isSome = true

/-- the group under construction has a sink, or the name of its sink will be looked up -/
def Supplied : PC → Prop
  | .mkInheritLevel _ _ g | .mkLevel _ g | .mkInsert _ g => g.sink.isSome = true
  | .mkSink a g => a.sink.isSome = true ∨ g.sink.isSome = true
  | _ => True

structure Equipped (s : St) : Prop where
  all : AllHaveSink s.sys
  pcs : ∀ t, Supplied (s.pc t)
  out : ∀ t, SinkCall.null t ∉ s.out

/-- arguments of the group a thread is making: they stay until the call is over -/
theorem making_step (s : St) (t u : Tid) {a : Args} (h : making (s.pc u) = some a) :
    making ((step s t).pc u) = some a ∨ ∃ o, Done.call a.op o ∈ (step s t).done := by
  by_cases hu : u = t
  · subst hu
    unfold step
    cases hp : s.pc u <;> rw [hp] at h <;> simp only [making, Option.some.injEq, reduceCtorEq] at h <;> dsimp only <;> (repeat' split) <;>
      simp [St.goto, St.finish, making, h]
  · left; rw [Many.step_pc_other _ _ _ hu]; exact h

theorem done_step (s : St) (t : Tid) {d : Done} (h : d ∈ s.done) : d ∈ (step s t).done := by
  unfold step
  repeat' split
  all_goals simp [St.goto, St.finish, h]

theorem roots_back {s s' : St} (he : Exec s s') (h : RootsNamed s') : RootsNamed s := by
  have pend : ∀ {t a}, making (s.pc t) = some a → making (s'.pc t) = some a ∨ (∃ o, Done.call a.op o ∈ s'.done) →
      a.parent.isSome = true ∨ a.sink.isSome = true := by
    intro t a _ h2
    rcases h2 with h2 | ⟨o, h2⟩
    · exact h.pending t a h2
    · exact h.done _ _ _ _ o h2
  have idle : ∀ {t : Tid} {p : PC}, s.pc t = .idle → ∀ u a, making (s.pc u) = some a → making (upd s.pc t p u) = some a := by
    intro t p hi u a hu
    by_cases hut : u = t
    · subst hut; rw [hi] at hu; cases hu
    · rw [upd_other _ _ hut]; exact hu
  cases he with
  | call t op fuel v sys' hi hm hc =>
    exact ⟨fun n p k l o hd => h.done n p k l o (List.mem_append_left _ hd), fun u a hu => pend hu (.inl (idle hi u a hu))⟩
  | failed t op fuel sys' hi hm hc =>
    exact ⟨fun n p k l o hd => h.done n p k l o (List.mem_append_left _ hd), fun u a hu => pend hu (.inl (idle hi u a hu))⟩
  | configuring t hi => exact ⟨fun n p k l o hd => h.done n p k l o (List.mem_append_left _ hd), fun u a hu => pend hu (.inl hu)⟩
  | makeGroup t a hi => exact ⟨h.done, fun u a hu => pend hu (.inl (idle hi u a hu))⟩
  | log t i r hi ha => exact ⟨h.done, fun u a hu => pend hu (.inl (idle hi u a hu))⟩
  | flush t i hi ha => exact ⟨h.done, fun u a hu => pend hu (.inl (idle hi u a hu))⟩
  | step t hi => exact ⟨fun n p k l o hd => h.done n p k l o (done_step s t hd), fun u a hu => pend hu (making_step s t u hu)⟩

theorem Equipped.goto {s : St} (h : Equipped s) (t : Tid) {p : PC} (hp : Supplied p) : Equipped (s.goto t p) := by
  refine ⟨h.all, fun u => ?_, h.out⟩
  show Supplied (upd _ _ _ _)
  by_cases e : u = t
  · subst e; rw [upd_same]; exact hp
  · rw [upd_other _ _ e]; exact h.pcs u

theorem Equipped.finish {s : St} (h : Equipped s) (t : Tid) {y : Sys} (ha : AllHaveSink y) (op : Op) (o : Outcome) : Equipped (s.finish t y op o) := by
  refine ⟨ha, fun u => ?_, h.out⟩
  show Supplied (upd _ _ _ _)
  by_cases e : u = t
  · subst e; rw [upd_same]; exact trivial
  · rw [upd_other _ _ e]; exact h.pcs u

theorem Equipped.says {s : St} (h : Equipped s) (t : Tid) {p : PC} (hp : Supplied p) (c : SinkCall) (hc : ∀ u, c ≠ .null u) :
    Equipped { s with pc := upd s.pc t p, out := s.out ++ [c] } := by
  refine ⟨h.all, (h.goto t hp).pcs, fun u hu => ?_⟩
  rcases List.mem_append.1 hu with hu | hu
  · exact h.out u hu
  · exact hc u (List.mem_singleton.1 hu).symm

theorem insert_sinks {s : Sys} (h : AllHaveSink s) {a : Args} {g : Group} (hg : g.sink.isSome = true) : AllHaveSink (insert a g s) := by
  refine ⟨fun x hx => ?_, h.2⟩
  show (upd s.grp s.ngroups g x).sink.isSome = true
  by_cases e : x = s.ngroups
  · subst e; rw [upd_same]; exact hg
  · have hx : x < s.ngroups + 1 := hx
    rw [upd_other _ _ e]; exact h.1 x (by omega)

theorem op_sinks {F : Nat} {s y : Sys} {op : Op} {v : Val} (hw : WF s) (h : AllHaveSink s) (hm : isMakeGroup op = false)
    (hc : System.step F s op = .ret v y ∨ System.step F s op = .throw y) : AllHaveSink y := by
  refine trans_sink hw h (step_trans (A := allowSink) hw (fun _ _ _ _ _ _ _ => trivial) ?_ (fun _ _ => trivial) hc)
  intro n p k l p' k' e _ _
  rw [e] at hm; cases hm

theorem equipped {s : St} (h : Reach s) (hr : RootsNamed s) : Equipped s := by
  induction h with
  | init debug ord ho =>
    refine ⟨⟨fun x hx => ?_, fun x hx => ?_⟩, fun _ => trivial, fun t ht => by cases ht⟩
    · simp [init, new] at hx
    · simp [init, new] at hx
  | @next s s' h he ih =>
    have hE := ih (roots_back he hr)
    have hr0 := roots_back he hr
    have hS := struct_reach h
    have hL := fun t => Many.log_exists h t
    cases he with
    | call t op fuel v sys' hi hm hc => exact hE.finish t (op_sinks hS.wf hE.all hm (.inl hc)) _ _
    | failed t op fuel sys' hi hm hc => exact hE.finish t (op_sinks (v := .unit) hS.wf hE.all hm (.inr hc)) _ _
    | configuring t hi => exact ⟨hE.all, hE.pcs, hE.out⟩
    | makeGroup t a hi =>
      refine hE.goto t ?_
      have hp := hr.pending t a
      unfold Args.start at hp ⊢
      split
      · exact trivial
      · rename_i hn
        left
        rcases hp (by show making (upd s.pc t _ t) = _; rw [upd_same, if_neg hn]; rfl) with h1 | h1
        · exact absurd h1 hn
        · exact h1
    | log t i r hi ha => exact hE.goto t trivial
    | flush t i hi ha => exact hE.goto t trivial
    | step t hi =>
      have hp := hS.pcs t
      have hq := hE.pcs t
      have hl := hL t
      unfold step
      cases hpc : s.pc t with
      | idle => exact absurd hpc hi
      | mkParent a =>
        dsimp only
        split
        · exact hE.finish t hE.all _ _
        · exact hE.goto t trivial
      | mkInheritSink a p g =>
        rw [hpc] at hp
        exact hE.goto t (p := .mkInheritLevel a p { g with sink := (s.sys.grp p).sink }) (hE.all.1 p hp.1)
      | mkInheritLevel a p g =>
        rw [hpc] at hq
        exact hE.goto t (p := .mkSink a { g with level := (s.sys.grp p).level }) (.inr hq)
      | mkSink a g =>
        rw [hpc] at hq
        dsimp only
        split
        · rename_i hn
          refine hE.goto t (p := .mkLevel a g) ?_
          rcases hq with hq | hq
          · rw [hn] at hq; cases hq
          · exact hq
        · split
          · exact hE.finish t hE.all _ _
          · exact hE.goto t (p := .mkLevel a _) rfl
      | mkLevel a g =>
        rw [hpc] at hq
        dsimp only
        split
        · exact hE.goto t (p := .mkInsert a _) hq
        · split
          · exact hE.goto t (p := .mkInsert a _) hq
          · exact hE.finish t hE.all _ _
      | mkInsert a g =>
        rw [hpc] at hq
        exact hE.finish t (insert_sinks hE.all hq) _ _
      | log1 i r =>
        refine hE.goto t ?_
        split <;> exact trivial
      | log2 i r =>
        rw [hpc] at hl
        have hs := hE.all.2 i hl
        dsimp only
        split
        · rename_i hn; rw [hn] at hs; cases hs
        · exact hE.says t (p := .log3 i) trivial _ (fun u e => by cases e)
      | log3 i =>
        refine hE.goto t ?_
        split <;> exact trivial
      | log4 i =>
        rw [hpc] at hl
        have hs := hE.all.2 i hl
        dsimp only
        split
        · rename_i hn; rw [hn] at hs; cases hs
        · exact hE.says t (p := .idle) trivial _ (fun u e => by cases e)

end Conc
end System

namespace Many
open Spec Render
open System.Conc (RootsNamed SinkCall)

/-- **C99**, pointers: if every group has a parent or names its sink, no log call of any thread goes through a null pointer, and every
logger and every group has a sink, at every moment of every execution. -/
theorem C99_no_null_pointer (S : Setup) (s : St) (h : Reach S s) (hr : RootsNamed s.sys) :
    (∀ t, SinkCall.null t ∉ s.sys.out) ∧ System.AllHaveSink s.sys.sys :=
  have hE := System.Conc.equipped (sys_reach h) hr
  ⟨hE.out, hE.all⟩

theorem Matches.left_mem {α β : Type} {rel : α → β → Prop} {as : List α} {bs : List β} (h : Matches rel as bs) : ∀ a ∈ as, ∃ b, rel a b := by
  induction h with
  | nil => intro a ha; cases ha
  | cons h1 _ ih =>
    intro a ha
    rcases List.mem_cons.1 ha with e | e
    · exact ⟨_, e ▸ h1⟩
    · exact ih a e

theorem accepted_eventOf {S : Setup} (hS : S.Sound) {s : St} (h : Reach S s) {i : Nat} {x : Tid × Event} (hx : x ∈ acceptedBy (s.leaf i)) :
    ∃ m, EventOf (S.leaf i) x.2 m := by
  obtain ⟨done, rest, _, h2⟩ := C89_never_too_much S hS s h x.1 i
  refine h2.left_mem x.2 ?_
  rw [← acceptedBy_filter]
  exact List.mem_map.2 ⟨x, List.mem_filter.2 ⟨hx, by simp⟩, rfl⟩

/-- **C99**, queues: in no execution of any number of threads is a slot of a queue accessed out of range, before its construction or after it has been
given away, and no queue holds more than its capacity. -/
theorem C99_queues (S : Setup) (hS : ∀ i, 0 < (S.leaf i).conc.capacity) (s : St) (h : Reach S s) (i : Nat) :
    (s.leaf i).ub = false ∧ (s.leaf i).ring.ub = false ∧ (s.leaf i).ring.buf.size ≤ (S.leaf i).conc.capacity :=
  SinkFull.C72_no_undefined_behaviour _ _ (hS i) _ (leaf_reach h i)

/-- **C99**, buffers: the record of every event any thread has brought into a sink, pushed while the clock is after 1970 and by one of the first 2^64
threads, fits the staging buffer of a console or file sink whose buffer was asked for with at least 321 bytes, or whose message limit is at
least 161. -/
theorem C99_records_fit (S : Setup) (hS : S.Sound) (s : St) (h : Reach S s) (i : Nat) (lt : LocalTime) (requested : Nat)
    (hreq : 321 ≤ requested ∨ 161 ≤ (S.leaf i).maxLen) (color boldFirst : Bool) (x : Tid × Event) (hx : x ∈ acceptedBy (s.leaf i))
    (ht : 0 ≤ x.2.timestamp) (hn : x.2.threadNumber < 2 ^ 64) :
    let cap := bufferSize requested (S.leaf i).maxLen
    let console := (consoleRecord lt (S.leaf i).ti color boldFirst Cache.init (fresh cap) x.2).1
    let file := (fileRecord lt (S.leaf i).ti Cache.init (fresh cap) x.2).1
    x.2.message.length ≤ (S.leaf i).maxLen ∧ console.overflow = false ∧ console.out.length ≤ cap ∧ file.overflow = false ∧ file.out.length ≤ cap := by
  obtain ⟨m, env, he⟩ := accepted_eventOf hS h hx
  have he' : x.2 = mkEvent { env with threadNumber := x.2.threadNumber } (S.leaf i).ti (S.leaf i).maxLen m := by
    rw [he]; unfold mkEvent
    cases (S.leaf i).ti <;> rfl
  have hnow : env.now = x.2.timestamp := by rw [he]; rfl
  have := C09_records_fit lt requested (S.leaf i).maxLen hreq (S.leaf i).ti color boldFirst { env with threadNumber := x.2.threadNumber } m
    (by show 0 ≤ env.now; rw [hnow]; exact ht) hn
  rw [← he'] at this
  refine ⟨?_, this.1.1, this.1.2.1, this.2.1, this.2.2.1⟩
  rw [he]
  unfold mkEvent
  cases m.fmt <;> simp only [List.length_take] <;> omega

/-! the execution of C98: thread 2 has brought a warning into file 0, thread 1 is pushing, thread 3 makes a group -/

theorem act_sys_idle {s s' : St} {a : Act} (h : act s a = some s') (hi : ∀ u, 4 ≤ u → s.sys.pc u = .idle) : ∀ u, 4 ≤ u → s'.sys.pc u = .idle := by
  cases a with
  | sys a =>
    simp only [act] at h
    split at h
    · rename_i hc
      rw [Option.map_eq_some_iff] at h
      obtain ⟨y, hy, rfl⟩ := h
      intro u hu
      show y.pc u = _
      rw [(act_moves hy).pc_other (fun e => Nat.not_le.2 hc.2.1 (e ▸ hu))]
      exact hi u hu
    · cases h
  | enter t =>
    simp only [act] at h
    split at h
    · cases h
    · split at h <;> cases h; exact hi
  | leaf i t n => simp only [act] at h; split at h <;> cases h; exact hi
  | destroy t i => simp only [act] at h; split at h <;> cases h; exact hi

theorem lact_sys_idle {s s' : Lock.St} {a : Lock.LAct} (h : Lock.lact s a = some s') (hi : ∀ u, 4 ≤ u → s.prog.sys.pc u = .idle) :
    ∀ u, 4 ≤ u → s'.prog.sys.pc u = .idle := by
  cases a with
  | unlock t => simp only [Lock.lact] at h; split at h <;> cases h; exact hi
  | configured t => simp only [Lock.lact] at h; split at h <;> cases h; exact hi
  | on a =>
    cases a with
    | sys a =>
      simp only [Lock.lact] at h; split at h
      · rw [Option.map_eq_some_iff] at h
        obtain ⟨p, hp, rfl⟩ := h
        exact act_sys_idle hp hi
      · cases h
    | _ =>
      simp only [Lock.lact] at h
      rw [Option.map_eq_some_iff] at h
      obtain ⟨p, hp, rfl⟩ := h
      exact act_sys_idle hp hi

theorem lrun_sys_idle {as : List Lock.LAct} {s s' : Lock.St} (h : Lock.lrun as s = some s') (hi : ∀ u, 4 ≤ u → s.prog.sys.pc u = .idle) :
    ∀ u, 4 ≤ u → s'.prog.sys.pc u = .idle := by
  induction as generalizing s with
  | nil => cases h; exact hi
  | cons a as ih =>
    simp only [Lock.lrun] at h
    cases ha : Lock.lact s a with
    | none => rw [ha] at h; cases h
    | some s1 => rw [ha] at h; exact ih h (lact_sys_idle ha hi)

def namedDone : System.Conc.Done → Bool
  | .call (.makeGroup _ p k _) _ => p.isSome || k.isSome
  | _ => true

def namedPc (p : System.Conc.PC) : Bool :=
  match System.Conc.making p with
  | some a => a.parent.isSome || a.sink.isSome
  | none => true

theorem example_done : Lock.lockState.prog.sys.done.all namedDone = true := by decide +kernel
theorem example_pending : (List.range 4).all (fun u => namedPc (Lock.lockState.prog.sys.pc u)) = true := by decide +kernel

theorem example_roots : RootsNamed Lock.lockState.prog.sys := by
  constructor
  · intro n p k l o hd
    have := List.all_eq_true.1 example_done _ hd
    simpa [namedDone] using this
  · intro t a ha
    by_cases h4 : t < 4
    · have := List.all_eq_true.1 example_pending t (List.mem_range.2 h4)
      unfold namedPc at this
      rw [ha] at this
      simpa using this
    · have hrun : Lock.lrun Lock.lockActs Lock.lockStart = some Lock.lockState := (Option.some_get _).symm
      have h0 : ∀ u, 4 ≤ u → Lock.lockStart.prog.sys.pc u = .idle := fun _ _ => rfl
      have h1 : Lock.lockState.prog.sys.pc t = .idle := lrun_sys_idle hrun h0 t (Nat.not_lt.1 h4)
      rw [h1] at ha
      cases ha

example : RootsNamed Lock.lockState.prog.sys ∧ exampleSetup.Sound ∧ Reach exampleSetup Lock.lockState.prog :=
  ⟨example_roots, example_sound, Lock.reach_prog Lock.lockState_reach.1⟩

/-- after the execution of C89 the sink 1 has accepted the message of thread 1, which meets the hypotheses of `C99_records_fit` -/
example : exampleSetup.Sound ∧ Reach exampleSetup final ∧ 321 ≤ 400 ∧ ∃ x ∈ acceptedBy (final.leaf 1), 0 ≤ x.2.timestamp ∧ x.2.threadNumber < 2 ^ 64 := by
  refine ⟨example_sound, final_run.1.reach initial_reach, by decide, ?_⟩
  have h : (acceptedBy (final.leaf 1)).any (fun x => decide (0 ≤ x.2.timestamp) && decide (x.2.threadNumber < 2 ^ 64)) = true := by decide +kernel
  obtain ⟨x, h1, h2⟩ := List.any_eq_true.1 h
  rw [Bool.and_eq_true] at h2
  exact ⟨x, h1, of_decide_eq_true h2.1, of_decide_eq_true h2.2⟩

end Many
end Soralog
