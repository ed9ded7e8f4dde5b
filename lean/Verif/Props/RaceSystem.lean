import Verif.Proofs.RaceSystem
import Verif.Props.SystemConc
/-!
# Properties: data races in the logging system (C80)

Definitions: `Spec/HappensBefore.lean`.  What each step does to memory: `Model/RaceSystem.lean`.
-/
namespace Soralog
namespace Race
open System (Sys Op)
open System.Conc (St Exec Reach isMakeGroup)

/-- **C80**, part: accesses made with the mutex held are never part of a data race with each other, in any execution. -/
theorem C80_locked_partial {d : Bool} {s : St} {tr : SysTrace} (h : SysRun d s tr) (w : Tid) {i j : Nat} {t u : Tid} {a b : SysEv} (hij : i < j)
    (hi : tr[i]? = some (t, a)) (hj : tr[j]? = some (u, b)) (htu : t ≠ u) (hl : Locked tr i t) (hl' : Locked tr j u) : HB w tr i j := by
  have hd := (good_run h).disc
  exact held_before hd hij hi hj htu ((held_locked hd (Nat.le_of_lt (lt_of_some hi))).2 hl) ((held_locked hd (Nat.le_of_lt (lt_of_some hj))).2 hl')

/-- **C80**, part: when the methods of logger objects are not used, all writes are made with the mutex held, and the only accesses without it
are reads of the level or the sink of a logger (by a log call) or of a group (the parent of a group under construction). -/
theorem C80_unlocked_partial {s : St} {tr : SysTrace} (h : SysRun false s tr) {n : Nat} {t : Tid} {e : SysEv} (hn : tr[n]? = some (t, e)) {x : Field}
    (he : e = .read x ∨ e = .write x) :
    Locked tr n t ∨ (e = .read x ∧ ((∃ i, x = .loggerLevel i ∨ x = .loggerSink i) ∨ ∃ g, x = .groupLevel g ∨ x = .groupSink g)) := by
  have hg := good_run h
  rcases hg.plain rfl n t e hn (by rcases he with rfl | rfl <;> rfl) with h1 | ⟨y, h1, h2⟩
  · exact .inl ((held_locked hg.disc (Nat.le_of_lt (lt_of_some hn))).1 h1)
  · refine .inr ?_
    rcases he with rfl | rfl
    · cases h1; exact ⟨rfl, h2⟩
    · cases h1

/-- **C80**, part: an execution has no data race if the methods of logger objects are not used, and each thread that logs through a logger (or builds
a group on a parent) has made a call that takes the mutex since the last change of that level and sink, which are not changed afterwards. -/
theorem C80_settled_partial {s : St} {tr : SysTrace} (h : SysRun false s tr) (hs : Settled tr) (w : Tid) : RaceFree w tr := by
  have hd := (good_run h).disc
  have hold : ∀ {n : Nat} {t : Tid} {e : SysEv}, tr[n]? = some (t, e) → (Locked tr n t ↔ held .mutex (tr.take n) = some t) :=
    fun hn => (held_locked hd (Nat.le_of_lt (lt_of_some hn))).symm
  have wlock : ∀ {n : Nat} {t : Tid} {x : Field}, tr[n]? = some (t, .write x) → Locked tr n t := by
    intro n t x hn
    rcases C80_unlocked_partial h hn (.inr rfl) with h1 | ⟨h1, _⟩
    · exact h1
    · cases h1
  intro i j t u a b hij hi hj htu hc
  obtain ⟨x, ⟨rfl, rfl | rfl⟩ | ⟨rfl, rfl⟩⟩ := hc
  · exact C80_locked_partial h w hij hi hj htu (wlock hi) (wlock hj)
  · by_cases hl : Locked tr j u
    · exact C80_locked_partial h w hij hi hj htu (wlock hi) hl
    · obtain ⟨k, h1, h2, h3⟩ := hs j u x hj hl i t hi htu
      exact .trans (locked_acquire hd hi ((hold hi).1 (wlock hi)) h1 h3 htu) (.thread h2 h3 hj)
  · by_cases hl : Locked tr i t
    · exact C80_locked_partial h w hij hi hj htu hl (wlock hj)
    · obtain ⟨k, h1, h2, _⟩ := hs i t x hi hl j u hj (Ne.symm htu)
      omega

/-- everything that exists is written -/
def allWrites (s : Sys) : List SysEv :=
  (List.range s.nloggers).flatMap (fun i => [.write (.loggerLevel i), .write (.loggerSink i), .write (.loggerRest i)]) ++
  (List.range s.ngroups).flatMap (fun g => [.write (.groupLevel g), .write (.groupSink g), .write (.groupRest g)]) ++ [.write .tables]

theorem allWrites_covers (s s' : Sys) : Covers s s' (allWrites s') := by
  refine ⟨fun e he => ?_, fun i hi _ => ?_, fun i hi _ => ?_, fun i hi _ => ?_, fun i hi _ => ?_, fun i hi _ => ?_, fun i hi _ => ?_, fun _ => ?_⟩
  · simp only [allWrites, List.mem_append, List.mem_flatMap] at he
    rcases he with (⟨i, _, he⟩ | ⟨i, _, he⟩) | he <;> simp at he
    · rcases he with rfl | rfl | rfl <;> rfl
    · rcases he with rfl | rfl | rfl <;> rfl
    · subst he; rfl
  all_goals simp [allWrites, *]

/-- The executions are those of C76, C77 and C78, with traces that record a write of everything that is changed. -/
theorem C80_runs (s : St) : Reach s ↔ ∃ tr, SysRun true s tr := by
  constructor
  · intro h
    induction h with
    | init debug ord ho => exact ⟨[], .init debug ord ho⟩
    | next _ he ih =>
      obtain ⟨tr, ih⟩ := ih
      cases he with
      | call t op fuel v sys' hi hm hc =>
        cases hl : isLocked op with
        | true => exact ⟨_, .next ih (.call _ t op fuel v sys' _ hi hm hl hc (allWrites_covers _ _))⟩
        | false => exact ⟨_, .next ih (.method _ t op fuel v sys' _ hi hl rfl hc (allWrites_covers _ _))⟩
      | failed t op fuel sys' hi hm hc =>
        cases hl : isLocked op with
        | true => exact ⟨_, .next ih (.failed _ t op fuel sys' _ hi hm hl hc (allWrites_covers _ _))⟩
        | false =>
          cases op <;> try cases hl
          · simp only [System.step] at hc; split at hc <;> cases hc
          · cases hc
      | configuring t hi => exact ⟨_, .next ih (.configuring _ t hi)⟩
      | makeGroup t a hi => exact ⟨_, .next ih (.makeGroup _ t a hi)⟩
      | log t i r hi ha => exact ⟨_, .next ih (.log _ t i r hi ha)⟩
      | flush t i hi ha => exact ⟨_, .next ih (.flush _ t i hi ha)⟩
      | step t hi =>
        rename_i s0 _
        cases hl : lockedStep (s0.pc t) with
        | true => exact ⟨_, .next ih (.locked _ t _ hl (allWrites_covers _ _))⟩
        | false => exact ⟨_, .next ih (.plain _ t hi hl)⟩
  · rintro ⟨tr, h⟩
    induction h with
    | init debug ord ho => exact .init debug ord ho
    | next _ he ih =>
      cases he with
      | call t op fuel v sys' acc hi hm hl hc ha => exact .next ih (.call _ t op fuel v sys' hi hm hc)
      | failed t op fuel sys' acc hi hm hl hc ha => exact .next ih (.failed _ t op fuel sys' hi hm hc)
      | method t op fuel v sys' acc hi hl hd hc ha =>
        exact .next ih (.call _ t op fuel v sys' hi (by cases op <;> first | rfl | cases hl) hc)
      | drop t i fuel v sys' hi hc => exact .next ih (.call _ t _ fuel v sys' hi rfl hc)
      | configuring t hi => exact .next ih (.configuring _ t hi)
      | makeGroup t a hi => exact .next ih (.makeGroup _ t a hi)
      | log t i r hi ha => exact .next ih (.log _ t i r hi ha)
      | flush t i hi ha => exact .next ih (.flush _ t i hi ha)
      | plain t hi hl => exact .next ih (.step _ t hi)
      | locked t acc hl ha => exact .next ih (.step _ t (fun h => by rw [h] at hl; cases hl))

/-- A step without the mutex changes nothing that other threads can see, and what it uses is what it has read: with equal levels and sinks at the
locations of its events it goes on in the same way. -/
theorem C80_reads_complete (s s' : St) (t : Tid) (hp : s'.pc t = s.pc t) (hl : lockedStep (s.pc t) = false) (hi : s.pc t ≠ .idle)
    (hlg : ∀ i, (.read (.loggerLevel i) ∈ plainEvents (s.pc t) → (s'.sys.lgr i).level = (s.sys.lgr i).level) ∧
      (.read (.loggerSink i) ∈ plainEvents (s.pc t) → (s'.sys.lgr i).sink = (s.sys.lgr i).sink))
    (hg : ∀ g, (.read (.groupLevel g) ∈ plainEvents (s.pc t) → (s'.sys.grp g).level = (s.sys.grp g).level) ∧
      (.read (.groupSink g) ∈ plainEvents (s.pc t) → (s'.sys.grp g).sink = (s.sys.grp g).sink)) :
    (System.Conc.step s t).sys = s.sys ∧ (System.Conc.step s' t).pc t = (System.Conc.step s t).pc t ∧
    ∃ o, (System.Conc.step s t).out = s.out ++ o ∧ (System.Conc.step s' t).out = s'.out ++ o := by
  have e : ∀ {pc : Tid → System.Conc.PC} {p}, upd pc t p t = p := System.upd_same _ _ _
  unfold System.Conc.step
  rw [hp]
  cases hpc : s.pc t <;> rw [hpc] at hl hi hlg hg <;> dsimp only
  case idle => exact absurd rfl hi
  case mkParent a => cases hl
  case mkInheritSink a p g =>
    have := (hg p).2 (by simp [plainEvents])
    exact ⟨rfl, by simp only [St.goto, e]; rw [this], [], by simp [St.goto], by simp [St.goto]⟩
  case mkInheritLevel a p g =>
    have := (hg p).1 (by simp [plainEvents])
    exact ⟨rfl, by simp only [St.goto, e]; rw [this], [], by simp [St.goto], by simp [St.goto]⟩
  case mkSink a g =>
    cases hs : a.sink with
    | some k => simp [lockedStep, hs] at hl
    | none => exact ⟨rfl, by simp only [St.goto, e], [], by simp [St.goto], by simp [St.goto]⟩
  case mkLevel a g =>
    cases hs : a.level with
    | some k => exact ⟨rfl, by simp only [St.goto, e], [], by simp [St.goto], by simp [St.goto]⟩
    | none =>
      dsimp only
      split
      · exact ⟨rfl, by simp only [St.goto, e], [], by simp [St.goto], by simp [St.goto]⟩
      · exact ⟨rfl, by simp only [St.finish, e], [], by simp [St.finish], by simp [St.finish]⟩
  case mkInsert a g => cases hl
  case log1 i r =>
    have := (hlg i).1 (by simp [plainEvents])
    exact ⟨rfl, by simp only [St.goto, e]; rw [this], [], by simp [St.goto], by simp [St.goto]⟩
  case log2 i r =>
    have := (hlg i).2 (by simp [plainEvents])
    rw [this]
    cases (s.sys.lgr i).sink with
    | none => exact ⟨rfl, by simp only [e], [.null t], rfl, rfl⟩
    | some k => exact ⟨rfl, by simp only [e], [.push t k r], rfl, rfl⟩
  case log3 i =>
    have := (hlg i).1 (by simp [plainEvents])
    exact ⟨rfl, by simp only [St.goto, e]; rw [this], [], by simp [St.goto], by simp [St.goto]⟩
  case log4 i =>
    have := (hlg i).2 (by simp [plainEvents])
    rw [this]
    cases (s.sys.lgr i).sink with
    | none => exact ⟨rfl, by simp only [e], [.null t], rfl, rfl⟩
    | some k => exact ⟨rfl, by simp only [e], [.flush t k], rfl, rfl⟩

/-- a write of everything that is changed, and of no other member of a logger or group -/
def changes (s s' : Sys) : List SysEv :=
  (List.range s'.nloggers).flatMap (fun i =>
    (if (s'.lgr i).level ≠ (s.lgr i).level then [.write (.loggerLevel i)] else []) ++
    (if (s'.lgr i).sink ≠ (s.lgr i).sink then [.write (.loggerSink i)] else []) ++
    (if ((s'.lgr i).group, (s'.lgr i).levelOv, (s'.lgr i).sinkOv) ≠ ((s.lgr i).group, (s.lgr i).levelOv, (s.lgr i).sinkOv) then
      [.write (.loggerRest i)] else [])) ++
  (List.range s'.ngroups).flatMap (fun g =>
    (if (s'.grp g).level ≠ (s.grp g).level then [.write (.groupLevel g)] else []) ++
    (if (s'.grp g).sink ≠ (s.grp g).sink then [.write (.groupSink g)] else []) ++
    (if ((s'.grp g).parent, (s'.grp g).levelOv, (s'.grp g).sinkOv) ≠ ((s.grp g).parent, (s.grp g).levelOv, (s.grp g).sinkOv) then
      [.write (.groupRest g)] else [])) ++
  [.write .tables]

theorem changes_covers (s s' : Sys) : Covers s s' (changes s s') := by
  have key : ∀ (p : Prop) [Decidable p] (e e' : SysEv), e ∈ (if p then [e'] else []) → e = e' := by
    intro p _ e e' h
    split at h <;> simp at h
    exact h
  refine ⟨fun e he => ?_, fun i hi h => ?_, fun i hi h => ?_, fun i hi h => ?_, fun i hi h => ?_, fun i hi h => ?_, fun i hi h => ?_, fun _ => ?_⟩
  · simp only [changes, List.mem_append, List.mem_flatMap, List.mem_singleton] at he
    rcases he with (⟨i, _, (he | he) | he⟩ | ⟨i, _, (he | he) | he⟩) | he <;> (try have he := key _ _ _ he) <;> subst he <;> rfl
  · exact List.mem_append_left _ (List.mem_append_left _ (List.mem_flatMap.2 ⟨i, List.mem_range.2 hi, List.mem_append_left _ (List.mem_append_left _
      (by rw [if_pos h]; exact List.mem_singleton.2 rfl))⟩))
  · exact List.mem_append_left _ (List.mem_append_left _ (List.mem_flatMap.2 ⟨i, List.mem_range.2 hi, List.mem_append_left _ (List.mem_append_right _
      (by rw [if_pos h]; exact List.mem_singleton.2 rfl))⟩))
  · exact List.mem_append_left _ (List.mem_append_left _ (List.mem_flatMap.2 ⟨i, List.mem_range.2 hi, List.mem_append_right _
      (by rw [if_pos h]; exact List.mem_singleton.2 rfl)⟩))
  · exact List.mem_append_left _ (List.mem_append_right _ (List.mem_flatMap.2 ⟨i, List.mem_range.2 hi, List.mem_append_left _ (List.mem_append_left _
      (by rw [if_pos h]; exact List.mem_singleton.2 rfl))⟩))
  · exact List.mem_append_left _ (List.mem_append_right _ (List.mem_flatMap.2 ⟨i, List.mem_range.2 hi, List.mem_append_left _ (List.mem_append_right _
      (by rw [if_pos h]; exact List.mem_singleton.2 rfl))⟩))
  · exact List.mem_append_left _ (List.mem_append_right _ (List.mem_flatMap.2 ⟨i, List.mem_range.2 hi, List.mem_append_right _
      (by rw [if_pos h]; exact List.mem_singleton.2 rfl)⟩))
  · exact List.mem_append_right _ (List.mem_singleton.2 rfl)

open System.Conc (Act act act_exec began) in
/-- the events of one action of a schedule without methods of logger objects -/
def actEvents (s s' : St) : Act → Option SysTrace
  | .call t op => if isLocked op then some (block t (changes s.sys s'.sys)) else none
  | .configuring t => some (block t [])
  | .mk _ _ | .log _ _ _ | .flush _ _ => some []
  | .step t => some (if lockedStep (s.pc t) then block t (changes s.sys s'.sys) else (plainEvents (s.pc t)).map (t, ·))

open System.Conc (Act act act_exec began) in
theorem act_sysExec {s s' : St} {a : Act} {l : SysTrace} (h : act s a = some s') (hl : actEvents s s' a = some l) : SysExec false s l s' := by
  cases a with
  | call t op =>
    simp only [actEvents] at hl
    split at hl <;> cases hl
    rename_i hlk
    simp only [act] at h
    split at h
    · rename_i hc
      split at h
      · rename_i v y hs; cases h; exact .call s t op 20 v y _ hc.1 hc.2 hlk hs (changes_covers _ _)
      · rename_i y hs; cases h; exact .failed s t op 20 y _ hc.1 hc.2 hlk hs (changes_covers _ _)
      · cases h
    · cases h
  | configuring t => cases hl; simp only [act] at h; split at h <;> cases h; exact .configuring s t (by assumption)
  | mk t a => cases hl; simp only [act] at h; split at h <;> cases h; exact .makeGroup s t a (by assumption)
  | log t i r => cases hl; simp only [act] at h; split at h <;> cases h; rename_i hc; exact .log s t i r hc.1 hc.2
  | flush t i => cases hl; simp only [act] at h; split at h <;> cases h; rename_i hc; exact .flush s t i hc.1 hc.2
  | step t =>
    cases hl
    simp only [act] at h
    split at h <;> cases h
    rename_i hi
    split
    · exact .locked s t _ (by assumption) (changes_covers _ _)
    · exact .plain s t hi (Bool.eq_false_iff.2 (by assumption))

open System.Conc (Act act act_exec began) in
/-- a schedule with its trace -/
def sysRun : List Act → St × SysTrace → Option (St × SysTrace)
  | [], x => some x
  | a :: as, x => (act x.1 a).bind fun s' => (actEvents x.1 s' a).bind fun l => sysRun as (s', x.2 ++ l)

open System.Conc (Act act act_exec began) in
theorem sysRun_run {as : List Act} {x y : St × SysTrace} (hx : SysRun false x.1 x.2) (h : sysRun as x = some y) : SysRun false y.1 y.2 := by
  induction as generalizing x with
  | nil => cases h; exact hx
  | cons a as ih =>
    simp only [sysRun] at h
    cases ha : act x.1 a with
    | none => rw [ha] at h; cases h
    | some s' =>
      rw [ha] at h
      simp only [Option.bind_some] at h
      cases hl : actEvents x.1 s' a with
      | none => rw [hl] at h; cases h
      | some l => rw [hl] at h; exact ih (x := (s', x.2 ++ l)) (.next hx (act_sysExec ha hl)) h

/-- the schedule that ends in `System.Conc.logged`; then thread 1 logs through `x` while thread 2 sets its level -/
def raceActs : List System.Conc.Act :=
  System.Conc.logActs ++ [.log 1 0 System.Conc.aDebug, .call 2 (.setLevelOfLogger ['x'] .error), .step 1]

def raced : St × SysTrace := (sysRun raceActs (System.Conc.began, [])).getD (System.Conc.began, [])

theorem raced_run : SysRun false raced.1 raced.2 := by
  have hs : (sysRun raceActs (System.Conc.began, [])).isSome = true := by decide +kernel
  have he : sysRun raceActs (System.Conc.began, []) = some raced := by
    unfold raced
    cases h : sysRun raceActs (System.Conc.began, []) with
    | none => rw [h] at hs; cases hs
    | some y => rfl
  exact sysRun_run (x := (System.Conc.began, [])) (.init true id fun _ => .refl _) he

/-- **C80** does not hold: a log call of one thread and `setLevelOfLogger` of the same logger by another thread are a data race on the level; no method of
a logger object has to be used for it. -/
theorem C80_refuted : ∃ s tr, SysRun false s tr ∧ ∀ w, ∃ i j, Races w tr i j := by
  refine ⟨raced.1, raced.2, raced_run, fun w => ⟨30, 34, 2, 1, .write (.loggerLevel 0), .read (.loggerLevel 0), by decide, by decide +kernel, by decide +kernel,
    by decide, ⟨.loggerLevel 0, .inl ⟨rfl, .inr rfl⟩⟩, fun hb => ?_⟩⟩
  have e : ∀ k, raced.2[30 + k]? = ([(2, .write (.loggerLevel 0)), (2, .write (.loggerRest 0)), (2, .write .tables), (2, .release .mutex),
      (1, .read (.loggerLevel 0))] : SysTrace)[k]? := by
    intro k
    have h : raced.2.drop 30 = ([(2, .write (.loggerLevel 0)), (2, .write (.loggerRest 0)), (2, .write .tables), (2, .release .mutex),
      (1, .read (.loggerLevel 0))] : SysTrace) := by decide +kernel
    rw [← h, List.getElem?_drop]
  obtain ⟨t, a, b, e1, e2, _⟩ := hb_same (n := 30) (fun k t e' hk he => by
    obtain ⟨m, rfl⟩ : ∃ m, k = 30 + (m + 1) := ⟨k - 31, by omega⟩
    rw [e] at he
    match m with
    | 0 => cases he; exact .inl ⟨_, .inr rfl⟩
    | 1 => cases he; exact .inl ⟨_, .inr rfl⟩
    | 2 => cases he; exact .inr ⟨_, rfl⟩
    | 3 => cases he; exact .inl ⟨_, .inl rfl⟩
    | m + 4 => simp at he) hb (Nat.le_refl _)
  rw [e 0] at e1
  rw [e 4] at e2
  cases e1; cases e2

/-- a check of `Settled` -/
def settledB (tr : SysTrace) : Bool :=
  (List.range tr.length).all fun n =>
    match tr[n]? with
    | some (t, .read x) =>
      (List.range n).any (fun k => tr[k]? == some (t, .acquire .mutex) && (List.range n).all fun m => !(k < m) || !(tr[m]? == some (t, .release .mutex))) ||
      (List.range tr.length).all fun m =>
        match tr[m]? with
        | some (u, .write y) => y != x || u == t || (List.range n).any fun k => m < k && tr[k]? == some (t, .acquire .mutex)
        | _ => true
    | _ => true

theorem settledB_sound {tr : SysTrace} (h : settledB tr = true) : Settled tr := by
  intro n t x hn hl m u hm hu
  have h1 := List.all_eq_true.1 h n (List.mem_range.2 (lt_of_some hn))
  rw [hn] at h1
  simp only [Bool.or_eq_true] at h1
  rcases h1 with h1 | h1
  · obtain ⟨k, h2, h3⟩ := List.any_eq_true.1 h1
    simp only [Bool.and_eq_true, beq_iff_eq, List.all_eq_true, Bool.or_eq_true, Bool.not_eq_true', decide_eq_false_iff_not, beq_eq_false_iff_ne] at h3
    refine absurd ⟨k, List.mem_range.1 h2, h3.1, fun m h4 h5 => ?_⟩ hl
    rcases h3.2 m (List.mem_range.2 h5) with h6 | h6
    · exact absurd h4 h6
    · exact h6
  · have h2 := List.all_eq_true.1 h1 m (List.mem_range.2 (lt_of_some hm))
    rw [hm] at h2
    simp only [Bool.or_eq_true, bne_self_eq_false, beq_iff_eq, Bool.false_eq_true, false_or] at h2
    rcases h2 with h2 | h2
    · exact absurd h2 hu
    · obtain ⟨k, h3, h4⟩ := List.any_eq_true.1 h2
      simp only [Bool.and_eq_true, beq_iff_eq, decide_eq_true_eq] at h4
      exact ⟨k, h4.1, List.mem_range.1 h3, h4.2⟩

/-- Thread 1 builds sinks, groups and the logger `x` and sets its level; threads 2 and 3 look it up and log through it at the same time, thread 1 makes
another logger and changes a group that has nothing to do with `x`. -/
def settledActs : List System.Conc.Act :=
  System.Conc.logActs ++ [.call 1 (.setLevelOfLogger ['x'] .trace), .call 2 (.getLogger ['x'] ['r'] none none), .call 3 (.getLogger ['x'] ['r'] none none),
    .log 2 0 System.Conc.aDebug, .log 3 0 System.Conc.aDebug, .step 2, .step 3, .call 1 (.setLevelOfGroup ['q'] .error), .step 2, .step 3, .step 2, .step 3,
    .call 1 (.getLogger ['y'] ['q'] none none), .step 2, .step 3]

def settled : St × SysTrace := (sysRun settledActs (System.Conc.began, [])).getD (System.Conc.began, [])

example : SysRun false settled.1 settled.2 ∧ Settled settled.2 ∧ RaceFree 0 settled.2 ∧ (settled.2.filter fun e => e.2 == .read (.loggerLevel 0)).length = 4 ∧
    settled.1.out = [.push 2 1 System.Conc.aDebug, .push 3 1 System.Conc.aDebug, .flush 2 1, .flush 3 1] := by
  have hs : (sysRun settledActs (System.Conc.began, [])).isSome = true := by decide +kernel
  have he : sysRun settledActs (System.Conc.began, []) = some settled := by
    unfold settled
    cases h : sysRun settledActs (System.Conc.began, []) with
    | none => rw [h] at hs; cases hs
    | some y => rfl
  have hr := sysRun_run (x := (System.Conc.began, [])) (.init true id fun _ => .refl _) he
  have hset : Settled settled.2 := settledB_sound (by decide +kernel)
  exact ⟨hr, hset, C80_settled_partial hr hset 0, by decide +kernel, by decide +kernel⟩

end Race
end Soralog
