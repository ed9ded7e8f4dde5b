import Verif.Proofs.SystemTree
/-!
# The outcome of a call does not depend on the order of the containers
-/
namespace Soralog
namespace System

open Hierarchy

/-- The same system, except for the order in which its hash maps and its sets of pointers are traversed. -/
structure Sim (s t : Sys) : Prop where
  eq : t = { s with groups := t.groups, loggers := t.loggers, sinks := t.sinks, ord := t.ord }
  groups : t.groups.find = s.groups.find
  loggers : t.loggers.find = s.loggers.find
  sinks : t.sinks.find = s.sinks.find

theorem Sim.symm {s t : Sys} (h : Sim s t) : Sim t s :=
  ⟨by conv => rhs; rw [h.eq]
      , h.groups.symm, h.loggers.symm, h.sinks.symm⟩

/-- the same outcome -/
inductive Res.Sim {α : Type} : Res α → Res α → Prop
  | ret (v : α) {s t : Sys} (h : System.Sim s t) : Res.Sim (.ret v s) (.ret v t)
  | throw {s t : Sys} (h : System.Sim s t) : Res.Sim (.throw s) (.throw t)
  | ub : Res.Sim .ub .ub

/-! ### when the visit ends -/

inductive Fin (h : Nat → Group) (stop : Group → Bool) (g : Nat) : Nat → Prop
  | here : Fin h stop g g
  | stopped {x : Nat} (hs : stop (h x) = true) : Fin h stop g x
  | root {x : Nat} (hp : (h x).parent = none) : Fin h stop g x
  | up {x p : Nat} (hp : (h x).parent = some p) (hf : Fin h stop g p) : Fin h stop g x

variable {h : Nat → Group} {stop : Group → Bool} {g : Nat}

theorem visit_fin {passed : Nat → Option (Option Nat)} (hpass : ∀ y, passed y ≠ none → Fin h stop g y) {fuel x : Nat}
    {st : Stages} (hv : visit h stop g passed fuel x st ≠ none) : Fin h stop g x := by
  induction fuel generalizing x st with
  | zero => exact absurd rfl hv
  | succ fuel ih =>
    unfold visit at hv
    cases hc : passed x with
    | some r => exact hpass x (by rw [hc]; simp)
    | none =>
      rw [hc] at hv
      simp only at hv
      split at hv
      · rename_i hx; subst hx; exact .here
      · split at hv
        · rename_i hs; exact .stopped hs
        · cases hp : (h x).parent with
          | none => exact .root hp
          | some p =>
            rw [hp] at hv
            simp only at hv
            refine .up hp (ih (st := st) ?_)
            intro hn
            rw [hn] at hv
            exact hv rfl

theorem fin_visit {x : Nat} (hf : Fin h stop g x) : ∃ N, ∀ fuel, N ≤ fuel → ∀ passed st,
    visit h stop g passed fuel x st ≠ none := by
  induction hf with
  | here =>
    refine ⟨1, fun fuel hf passed st => ?_⟩
    obtain ⟨f, rfl⟩ : ∃ f, fuel = f + 1 := ⟨fuel - 1, by omega⟩
    unfold visit
    split <;> simp
  | stopped hs =>
    refine ⟨1, fun fuel hf passed st => ?_⟩
    obtain ⟨f, rfl⟩ : ∃ f, fuel = f + 1 := ⟨fuel - 1, by omega⟩
    unfold visit
    split
    · simp
    · split
      · simp
      · simp
  | root hp =>
    refine ⟨1, fun fuel hf passed st => ?_⟩
    obtain ⟨f, rfl⟩ : ∃ f, fuel = f + 1 := ⟨fuel - 1, by omega⟩
    unfold visit
    split
    · simp
    · split
      · simp
      · split
        · simp
        · rw [hp]; simp
  | up hp _ ih =>
    obtain ⟨N, hN⟩ := ih
    refine ⟨N + 1, fun fuel hf passed st => ?_⟩
    obtain ⟨f, rfl⟩ : ∃ f, fuel = f + 1 := ⟨fuel - 1, by omega⟩
    unfold visit
    split
    · simp
    · split
      · simp
      · split
        · simp
        · rw [hp]
          simp only
          have := hN f (by omega) passed st
          split
          · rename_i hv; exact absurd hv this
          · simp
          · simp

theorem visitAll_fin {fuel : Nat} {rs : List Nat} {passed : Nat → Option (Option Nat)} {st : Stages}
    (hpass : ∀ y, passed y ≠ none → Fin h stop g y) (hv : visitAll h stop g fuel rs passed st ≠ none) :
    ∀ x ∈ rs, Fin h stop g x := by
  induction rs generalizing passed st with
  | nil => intro x hx; cases hx
  | cons r rs ih =>
    unfold visitAll at hv
    cases hr : visit h stop g passed fuel r st with
    | none => rw [hr] at hv; exact absurd rfl hv
    | some q =>
      have hfr : Fin h stop g r := visit_fin hpass (by rw [hr]; simp)
      rw [hr] at hv
      intro x hx
      rcases List.mem_cons.1 hx with rfl | hx
      · exact hfr
      · refine ih (passed := upd passed r (some q.1)) (st := q.2) ?_ hv x hx
        intro y hy
        by_cases hyr : y = r
        · rw [hyr]; exact hfr
        · rw [upd_other _ _ hyr] at hy; exact hpass y hy

theorem fin_visitAll {rs : List Nat} (hf : ∀ x ∈ rs, Fin h stop g x) : ∃ N, ∀ fuel, N ≤ fuel → ∀ passed st,
    visitAll h stop g fuel rs passed st ≠ none := by
  induction rs with
  | nil => exact ⟨0, fun fuel _ passed st => by simp [visitAll]⟩
  | cons r rs ih =>
    obtain ⟨N, hN⟩ := ih fun x hx => hf x (List.mem_cons_of_mem _ hx)
    obtain ⟨M, hM⟩ := fin_visit (hf r (by simp))
    refine ⟨max N M, fun fuel hfu passed st => ?_⟩
    unfold visitAll
    have h1 := hM fuel (by omega) passed st
    split
    · rename_i hv; exact absurd hv h1
    · exact hN fuel (by omega) _ _

/-! ### propagation -/

theorem Propagated.unique {F : Group → Group → Group} {up : (Nat → Group) → Logger → Logger} {s s' t t' : Sys}
    (hs : Propagated stop F up g s s') (ht : Propagated stop F up g t t') (hgrp : t.grp = s.grp) (hlgr : t.lgr = s.lgr)
    (halive : t.alive = s.alive) (hreg : ∀ x, x ∈ t.groups.map (·.2) ↔ x ∈ s.groups.map (·.2))
    (hlog : ∀ x, x ∈ t.loggers.map (·.2) ↔ x ∈ s.loggers.map (·.2)) : t'.grp = s'.grp ∧ t'.lgr = s'.lgr := by
  have hg : t'.grp = s'.grp := by
    have hpath : ∀ x l, Path s.grp stop g x l → (∀ y ∈ l, ∃ r l', r ∈ s.groups.map (·.2) ∧ Path s.grp stop g r l' ∧ y ∈ l') →
        t'.grp x = s'.grp x := by
      intro x l hl
      induction hl with
      | here =>
        intro _
        rw [hs.self, ht.self, hgrp]
      | @up x p l hne hst hp hl ih =>
        intro hy
        obtain ⟨r, l', hr, hl', hx⟩ := hy x List.mem_cons_self
        rw [hs.taken r l' x p hr hl' hx hp,
          ht.taken r l' x p ((hreg r).2 hr) (by rw [hgrp]; exact hl') hx (by rw [hgrp]; exact hp), hgrp,
          ih fun y hy' => hy y (List.mem_cons_of_mem _ hy')]
    funext x
    rcases hs.cases x with ⟨h1, h2⟩ | ⟨l, p, h1, _, _, _, _, h2⟩
    · rw [h1]
      rw [← hgrp]
      apply ht.kept
      intro r l hr hl hx
      exact h2 ⟨r, l, (hreg r).1 hr, by rw [← hgrp]; exact hl, hx⟩
    · exact hpath x _ h1 h2
  refine ⟨hg, ?_⟩
  funext i
  by_cases hc : s.alive i = true ∧ i ∈ s.loggers.map (·.2) ∧ (s.lgr i).group ∈ s.groups.map (·.2) ∧
    ∃ l, Path s.grp stop g (s.lgr i).group l
  · obtain ⟨a, b, c, d⟩ := hc
    rw [hs.lgr i a b c d, ht.lgr i (by rw [halive]; exact a) ((hlog i).2 b) (by rw [hlgr]; exact (hreg _).2 c)
      (by rw [hlgr, hgrp]; exact d), hg, hlgr]
  · rw [hs.lgr_kept i hc, ht.lgr_kept i, hlgr]
    rw [halive, hlgr, hgrp, hlog, hreg]
    exact hc

theorem propagate_sim {fuel : Nat} {f : Change} {F : Group → Group → Group} {up : (Nat → Group) → Logger → Logger}
    {s s' t : Sys} (hF : Copies f F) (hsim : Sim s t)
    (hos : ∀ l, (s.ord l).Perm l) (hot : ∀ l, (t.ord l).Perm l) (hgs : s.groups.Unique) (hgt : t.groups.Unique)
    (hls : s.loggers.Unique) (hlt : t.loggers.Unique)
    (hp : propagate fuel stop f up g s = some s') :
    ∃ fuel' t', propagate fuel' stop f up g t = some t' ∧ Sim s' t' := by
  have hgrp : t.grp = s.grp := by rw [hsim.eq]
  have hlgr : t.lgr = s.lgr := by rw [hsim.eq]
  have halive : t.alive = s.alive := by rw [hsim.eq]
  have hreg : ∀ x, x ∈ t.groups.map (·.2) ↔ x ∈ s.groups.map (·.2) := by
    intro x
    rw [Table.mem_values hgt, Table.mem_values hgs, hsim.groups]
  have hlog : ∀ x, x ∈ t.loggers.map (·.2) ↔ x ∈ s.loggers.map (·.2) := by
    intro x
    rw [Table.mem_values hlt, Table.mem_values hls, hsim.loggers]
  have hfin : ∀ x ∈ s.groups.map (·.2), Fin s.grp stop g x := by
    unfold propagate at hp
    apply visitAll_fin (fuel := fuel) (passed := fun _ => none) (st := []) (by simp)
    intro hn
    rw [hn] at hp; cases hp
  obtain ⟨N, hN⟩ := fin_visitAll (h := t.grp) (stop := stop) (g := g) (rs := t.groups.map (·.2))
    (fun x hx => by rw [hgrp]; exact hfin x ((hreg x).1 hx))
  have hN := hN N (Nat.le_refl _) (fun _ => none) []
  have hex : ∃ t', propagate N stop f up g t = some t' := by
    unfold propagate
    split
    · rename_i hv; exact absurd hv hN
    · exact ⟨_, rfl⟩
  obtain ⟨t', ht'⟩ := hex
  refine ⟨N, t', ht', ?_⟩
  have hPs := propagate_spec hF hos hp
  have hPt := propagate_spec hF hot ht'
  obtain ⟨u1, u2⟩ := hPs.unique hPt hgrp hlgr halive hreg hlog
  have hls' : s'.loggers = s.loggers.filter fun e => s.alive e.2 := by rw [hPs.rest]
  have hlt' : t'.loggers = t.loggers.filter fun e => t.alive e.2 := by rw [hPt.rest]
  have hgs' : s'.groups = s.groups := by rw [hPs.rest]
  have hgt' : t'.groups = t.groups := by rw [hPt.rest]
  have hks' : s'.sinks = s.sinks := by rw [hPs.rest]
  have hkt' : t'.sinks = t.sinks := by rw [hPt.rest]
  refine ⟨?_, by rw [hgs', hgt', hsim.groups], ?_, by rw [hks', hkt', hsim.sinks]⟩
  · rw [hPt.rest, hPs.rest, u1, u2, hsim.eq]
  · funext k
    rw [hls', hlt', Table.find_filter hls, Table.find_filter hlt, hsim.loggers, halive]

/-! ### a larger bound changes nothing -/

theorem visit_mono {passed : Nat → Option (Option Nat)} {fuel fuel' x : Nat} {st : Stages} {q : Option Nat × Stages}
    (hv : visit h stop g passed fuel x st = some q) (hf : fuel ≤ fuel') : visit h stop g passed fuel' x st = some q := by
  induction fuel generalizing fuel' x st q with
  | zero => cases hv
  | succ fuel ih =>
    obtain ⟨f, rfl⟩ : ∃ f, fuel' = f + 1 := ⟨fuel' - 1, by omega⟩
    unfold visit at hv ⊢
    cases hc : passed x with
    | some r => rw [hc] at hv; exact hv
    | none =>
      rw [hc] at hv
      simp only at hv ⊢
      split
      · rename_i hx; rw [if_pos hx] at hv; exact hv
      · rename_i hx
        rw [if_neg hx] at hv
        split
        · rename_i hs; rw [if_pos hs] at hv; exact hv
        · rename_i hs
          rw [if_neg hs] at hv
          cases hp : (h x).parent with
          | none => rw [hp] at hv; exact hv
          | some p =>
            rw [hp] at hv
            simp only at hv ⊢
            cases hr : visit h stop g passed fuel p st with
            | none => rw [hr] at hv; cases hv
            | some r =>
              rw [ih hr (by omega)]
              rw [hr] at hv
              exact hv

theorem visitAll_mono {fuel fuel' : Nat} {rs : List Nat} {passed : Nat → Option (Option Nat)} {st : Stages}
    {q : (Nat → Option (Option Nat)) × Stages} (hv : visitAll h stop g fuel rs passed st = some q) (hf : fuel ≤ fuel') :
    visitAll h stop g fuel' rs passed st = some q := by
  induction rs generalizing passed st with
  | nil => exact hv
  | cons r rs ih =>
    unfold visitAll at hv ⊢
    cases hr : visit h stop g passed fuel r st with
    | none => rw [hr] at hv; cases hv
    | some p =>
      rw [visit_mono hr hf]
      rw [hr] at hv
      exact ih hv

theorem propagate_mono {fuel fuel' : Nat} {f : Change} {up : (Nat → Group) → Logger → Logger} {s s' : Sys}
    (hv : propagate fuel stop f up g s = some s') (hf : fuel ≤ fuel') : propagate fuel' stop f up g s = some s' := by
  unfold propagate at hv ⊢
  cases hr : visitAll s.grp stop g fuel (s.groups.map (·.2)) (fun _ => none) [] with
  | none => rw [hr] at hv; cases hv
  | some p =>
    rw [visitAll_mono hr hf]
    rw [hr] at hv
    exact hv

theorem walk_mono {fuel fuel' : Nat} {o : Option Nat} {b : Bool} (hv : walk h g fuel o = some b) (hf : fuel ≤ fuel') :
    walk h g fuel' o = some b := by
  induction fuel generalizing fuel' o with
  | zero =>
    cases o with
    | none => unfold walk at hv ⊢; exact hv
    | some c => simp [walk] at hv
  | succ fuel ih =>
    obtain ⟨f, rfl⟩ : ∃ f, fuel' = f + 1 := ⟨fuel' - 1, by omega⟩
    cases o with
    | none => unfold walk at hv ⊢; exact hv
    | some c =>
      unfold walk at hv ⊢
      split
      · rename_i hc; rw [if_pos hc] at hv; exact hv
      · rename_i hc; rw [if_neg hc] at hv; exact ih hv (by omega)

/-- every call has the same outcome in both systems -/
theorem step_sim {fuel : Nat} {s t : Sys} (hws : WF s) (hwt : WF t) (hsim : Sim s t) (op : Op)
    (hr : step fuel s op ≠ .diverge) : ∃ N, ∀ fuel', N ≤ fuel' → Res.Sim (step fuel s op) (step fuel' t op) := by
  obtain ⟨heq, hg, hl, hk⟩ := hsim
  generalize t.groups = tg at heq hg
  generalize t.loggers = tl at heq hl
  generalize t.sinks = tk at heq hk
  generalize t.ord = to at heq
  subst heq
  have hput : ∀ {a b : Table}, a.find = b.find → ∀ k v, (a.put k v).find = (b.put k v).find := by
    intro a b h k v
    funext k'
    rw [Table.find_put, Table.find_put, h]
  have hmapsim : ∀ {α β : Type} (f : α → β) {a b : Res α}, Res.Sim a b → Res.Sim (a.map f) (b.map f) := by
    intro α β f a b h
    cases h with
    | ret v h => exact .ret (f v) h
    | throw h => exact .throw h
    | ub => exact .ub
  have hmapne : ∀ {α β : Type} (f : α → β) {a : Res α}, a.map f ≠ .diverge → a ≠ .diverge := by
    intro α β f a h hc
    subst hc
    exact h rfl
  have hrefl : Sim s ⟨s.debug, s.ngroups, s.grp, s.nloggers, s.lgr, s.alive, s.nsinks, s.sinkName, tg, tl, tk, s.configured, s.warned, to⟩ :=
    ⟨rfl, hg, hl, hk⟩
  have hlevel : ∀ g l fuel s', setLevelOfGroupPtr fuel g l s = some s' →
      ∃ N t', (∀ fuel', N ≤ fuel' → setLevelOfGroupPtr fuel' g l ⟨s.debug, s.ngroups, s.grp, s.nloggers, s.lgr, s.alive, s.nsinks, s.sinkName, tg, tl, tk,
        s.configured, s.warned, to⟩ = some t') ∧ Sim s' t' := by
    intro g l fuel s' h
    rw [setLevelOfGroupPtr_eq] at h
    obtain ⟨N, t', h1, h2⟩ := propagate_sim (s := { s with grp := baseLevel s.grp g l }) (t := ⟨s.debug, s.ngroups, baseLevel s.grp g l, s.nloggers, s.lgr, s.alive, s.nsinks, s.sinkName, tg, tl, tk,
        s.configured, s.warned, to⟩) copiesLevel
      ⟨rfl, hg, hl, hk⟩ hws.ord hwt.ord hws.gU hwt.gU hws.lU hwt.lU h
    exact ⟨N, t', fun fuel' hf => by rw [setLevelOfGroupPtr_eq]; exact propagate_mono h1 hf, h2⟩
  have hsink : ∀ g l fuel s', setSinkOfGroupPtr fuel g l s = some s' →
      ∃ N t', (∀ fuel', N ≤ fuel' → setSinkOfGroupPtr fuel' g l ⟨s.debug, s.ngroups, s.grp, s.nloggers, s.lgr, s.alive, s.nsinks, s.sinkName, tg, tl, tk,
        s.configured, s.warned, to⟩ = some t') ∧ Sim s' t' := by
    intro g l fuel s' h
    rw [setSinkOfGroupPtr_eq] at h
    obtain ⟨N, t', h1, h2⟩ := propagate_sim (s := { s with grp := baseSink s.grp g l }) (t := ⟨s.debug, s.ngroups, baseSink s.grp g l, s.nloggers, s.lgr, s.alive, s.nsinks, s.sinkName, tg, tl, tk,
        s.configured, s.warned, to⟩) copiesSink
      ⟨rfl, hg, hl, hk⟩ hws.ord hwt.ord hws.gU hwt.gU hws.lU hwt.lU h
    exact ⟨N, t', fun fuel' hf => by rw [setSinkOfGroupPtr_eq]; exact propagate_mono h1 hf, h2⟩
  have hparent : ∀ g l fuel s', setParentOfGroupPtr fuel g l s = some s' →
      ∃ N t', (∀ fuel', N ≤ fuel' → setParentOfGroupPtr fuel' g l ⟨s.debug, s.ngroups, s.grp, s.nloggers, s.lgr, s.alive, s.nsinks, s.sinkName, tg, tl, tk,
        s.configured, s.warned, to⟩ = some t') ∧ Sim s' t' := by
    intro g l fuel s' h
    rw [setParentOfGroupPtr_eq] at h
    obtain ⟨N, t', h1, h2⟩ := propagate_sim (s := { s with grp := baseParent s.grp g l }) (t := ⟨s.debug, s.ngroups, baseParent s.grp g l, s.nloggers, s.lgr, s.alive, s.nsinks, s.sinkName, tg, tl, tk,
        s.configured, s.warned, to⟩) copiesParent
      ⟨rfl, hg, hl, hk⟩ hws.ord hwt.ord hws.gU hwt.gU hws.lU hwt.lU h
    exact ⟨N, t', fun fuel' hf => by rw [setParentOfGroupPtr_eq]; exact propagate_mono h1 hf, h2⟩
  have hof : ∀ (r : Nat → Sys → Option Sys) (T : Sys), (∀ fuel s', r fuel s = some s' →
      ∃ N t', (∀ fuel', N ≤ fuel' → r fuel' T = some t') ∧ Sim s' t') →
      ofOption (r fuel s) ≠ .diverge → ∃ N, ∀ fuel', N ≤ fuel' → Res.Sim (ofOption (r fuel s)) (ofOption (r fuel' T)) := by
    intro r T h1 h2
    cases hc : r fuel s with
    | none => rw [hc] at h2; exact absurd rfl h2
    | some s' =>
      obtain ⟨N, t', h3, h4⟩ := h1 fuel s' hc
      exact ⟨N, fun fuel' hf => by rw [h3 fuel' hf]; exact .ret _ h4⟩
  have hlog : ∀ name erases up, Res.Sim (onLogger name erases up s) (onLogger name erases up
      ⟨s.debug, s.ngroups, s.grp, s.nloggers, s.lgr, s.alive, s.nsinks, s.sinkName, tg, tl, tk, s.configured, s.warned, to⟩) := by
    intro name erases up
    unfold onLogger
    simp only [hl]
    cases s.loggers.find name with
    | none => exact .ret _ hrefl
    | some i =>
      simp only
      split
      · exact .ret _ ⟨rfl, hg, hl, hk⟩
      · split
        · refine .ret _ ⟨rfl, hg, ?_, hk⟩
          funext k
          rw [Table.find_erase hws.lU, Table.find_erase hwt.lU, hl]
        · exact .ret _ hrefl
  cases op with
  | makeSink n => exact ⟨0, fun _ _ => .ret _ ⟨rfl, hg, hl, hput hk _ _⟩⟩
  | makeGroup n p k l =>
    refine ⟨0, fun _ _ => hmapsim _ ?_⟩
    rw [makeGroup_eq hws.gLt, makeGroup_eq hwt.gLt]
    have h1 : resolve tg p = resolve s.groups p := by unfold resolve; rw [hg]
    have h2 : resolve tk k = resolve s.sinks k := by unfold resolve; rw [hk]
    simp only [h1, h2]
    cases resolve s.groups p with
    | none => exact .throw hrefl
    | some p' =>
      cases resolve s.sinks k with
      | none => exact .throw hrefl
      | some k' =>
        cases (p.isSome || l.isSome) with
        | false => exact .throw hrefl
        | true =>
          refine .ret _ ⟨rfl, hput ?_ _ _, hl, hk⟩
          simp only [hg]
          split
          · exact hput hg _ _
          · exact hg
  | setFallbackGroup n =>
    refine ⟨0, fun _ _ => hmapsim _ ?_⟩
    unfold setFallbackGroup
    simp only [hg]
    cases s.groups.find n with
    | none => exact .ret _ hrefl
    | some g => exact .ret _ ⟨rfl, hput hg _ _, hl, hk⟩
  | getLogger n g k l =>
    refine ⟨0, fun _ _ => hmapsim _ ?_⟩
    unfold getLogger getGroup getFallbackGroup getSink warnThrough
    simp only [hg, hl]
    split
    · exact .throw hrefl
    · split
      · rename_i i hi
        rw [hi]; exact .ret _ hrefl
      · rename_i hi
        simp only [hi]
        split
        · exact .throw hrefl
        · by_cases hs : g = star
          · subst hs
            simp only [if_true]
            cases hf : s.groups.find star with
            | none => exact .ub
            | some f =>
              simp only [Option.bind]
              generalize Logger.new s.grp ['S', 'o', 'r', 'a', 'l', 'o', 'g'] f = w
              by_cases hw : Level.warn ≤ w.level
              · simp only [if_pos hw]
                cases w.sink with
                | none => exact .ub
                | some k0 =>
                  simp only [Option.map, hg, hk, hf]
                  refine .ret _ ⟨rfl, hg, hput hl _ _, hk⟩
              · simp only [if_neg hw, hg, hk, hf]
                refine .ret _ ⟨rfl, hg, hput hl _ _, hk⟩
          · simp only [if_neg hs, hg]
            cases hgf : s.groups.find g with
            | some g' =>
              simp only [hk]
              refine .ret _ ⟨rfl, hg, hput hl _ _, hk⟩
            | none =>
              simp only
              cases hf : s.groups.find star with
              | none => exact .ub
              | some f =>
                simp only [Option.bind]
                generalize Logger.new s.grp ['S', 'o', 'r', 'a', 'l', 'o', 'g'] f = w
                by_cases hw : Level.warn ≤ w.level
                · simp only [if_pos hw]
                  cases w.sink with
                  | none => exact .ub
                  | some k0 =>
                    simp only [Option.map, hk]
                    refine .ret _ ⟨rfl, hg, hput hl _ _, hk⟩
                · simp only [if_neg hw, Option.map, hk]
                  refine .ret _ ⟨rfl, hg, hput hl _ _, hk⟩
  | setParentOfGroup g p =>
    have hr := hmapne _ hr
    simp only [step]
    suffices h : ∃ N, ∀ fuel', N ≤ fuel' → Res.Sim (setParentOfGroup fuel g p s) (setParentOfGroup fuel' g p _) from
      h.imp fun N h fuel' hf => hmapsim _ (h fuel' hf)
    unfold setParentOfGroup at hr ⊢
    simp only [hg]
    cases hgf : s.groups.find g with
    | none => exact ⟨0, fun _ _ => .ret _ hrefl⟩
    | some g' =>
      cases hpf : s.groups.find p with
      | none => exact ⟨0, fun _ _ => .ret _ hrefl⟩
      | some p' =>
        rw [hgf, hpf] at hr
        simp only at hr ⊢
        by_cases hc : (s.grp p').parent ≠ some g'
        · simp only [if_pos hc] at hr ⊢
          cases hwk : walk s.grp g' fuel (s.grp p').parent with
          | none => rw [hwk] at hr; exact absurd rfl hr
          | some b =>
            cases b with
            | true =>
              refine ⟨fuel, fun fuel' hf => ?_⟩
              rw [walk_mono hwk hf]
              exact .ret _ hrefl
            | false =>
              rw [hwk] at hr
              obtain ⟨N, hN⟩ := hof (fun fuel s => setParentOfGroupPtr fuel g' (some p') s) _ (hparent g' (some p')) hr
              refine ⟨max N fuel, fun fuel' hf => ?_⟩
              rw [walk_mono hwk (by omega)]
              exact hN fuel' (by omega)
        · simp only [if_neg hc] at hr ⊢
          exact hof (fun fuel s => setParentOfGroupPtr fuel g' (some p') s) _ (hparent g' (some p')) hr
  | unsetParentOfGroup g =>
    have hr := hmapne _ hr
    simp only [step]
    suffices h : ∃ N, ∀ fuel', N ≤ fuel' → Res.Sim (unsetParentOfGroup fuel g s) (unsetParentOfGroup fuel' g _) from
      h.imp fun N h fuel' hf => hmapsim _ (h fuel' hf)
    unfold unsetParentOfGroup at hr ⊢
    simp only [hg]
    cases hgf : s.groups.find g with
    | none => exact ⟨0, fun _ _ => .ret _ hrefl⟩
    | some g' =>
      rw [hgf] at hr
      exact hof (fun fuel s => setParentOfGroupPtr fuel g' none s) _ (hparent g' none) hr
  | setSinkOfGroup g k =>
    have hr := hmapne _ hr
    simp only [step]
    suffices h : ∃ N, ∀ fuel', N ≤ fuel' → Res.Sim (setSinkOfGroup fuel g k s) (setSinkOfGroup fuel' g k _) from
      h.imp fun N h fuel' hf => hmapsim _ (h fuel' hf)
    unfold setSinkOfGroup getSink at hr ⊢
    simp only [hg, hk]
    cases hkf : s.sinks.find k with
    | none => exact ⟨0, fun _ _ => .ret _ hrefl⟩
    | some k' =>
      cases hgf : s.groups.find g with
      | none => exact ⟨0, fun _ _ => .ret _ hrefl⟩
      | some g' =>
        rw [hkf, hgf] at hr
        exact hof (fun fuel s => setSinkOfGroupPtr fuel g' (some k') s) _ (hsink g' (some k')) hr
  | resetSinkOfGroup g =>
    have hr := hmapne _ hr
    simp only [step]
    suffices h : ∃ N, ∀ fuel', N ≤ fuel' → Res.Sim (resetSinkOfGroup fuel g s) (resetSinkOfGroup fuel' g _) from
      h.imp fun N h fuel' hf => hmapsim _ (h fuel' hf)
    unfold resetSinkOfGroup at hr ⊢
    simp only [hg]
    cases hgf : s.groups.find g with
    | none => exact ⟨0, fun _ _ => .ret _ hrefl⟩
    | some g' =>
      rw [hgf] at hr
      exact hof (fun fuel s => setSinkOfGroupPtr fuel g' none s) _ (hsink g' none) hr
  | setLevelOfGroup g l =>
    have hr := hmapne _ hr
    simp only [step]
    suffices h : ∃ N, ∀ fuel', N ≤ fuel' → Res.Sim (setLevelOfGroup fuel g l s) (setLevelOfGroup fuel' g l _) from
      h.imp fun N h fuel' hf => hmapsim _ (h fuel' hf)
    unfold setLevelOfGroup at hr ⊢
    simp only [hg]
    cases hgf : s.groups.find g with
    | none => exact ⟨0, fun _ _ => .ret _ hrefl⟩
    | some g' =>
      rw [hgf] at hr
      exact hof (fun fuel s => setLevelOfGroupPtr fuel g' (some l) s) _ (hlevel g' (some l)) hr
  | resetLevelOfGroup g =>
    have hr := hmapne _ hr
    simp only [step]
    suffices h : ∃ N, ∀ fuel', N ≤ fuel' → Res.Sim (resetLevelOfGroup fuel g s) (resetLevelOfGroup fuel' g _) from
      h.imp fun N h fuel' hf => hmapsim _ (h fuel' hf)
    unfold resetLevelOfGroup at hr ⊢
    simp only [hg]
    cases hgf : s.groups.find g with
    | none => exact ⟨0, fun _ _ => .ret _ hrefl⟩
    | some g' =>
      rw [hgf] at hr
      exact hof (fun fuel s => setLevelOfGroupPtr fuel g' none s) _ (hlevel g' none) hr
  | setGroupOfLogger l g =>
    refine ⟨0, fun _ _ => hmapsim _ ?_⟩
    unfold setGroupOfLogger getGroup
    simp only [hg]
    cases s.groups.find g with
    | none => exact .ret _ hrefl
    | some g' => exact hlog _ _ _
  | setSinkOfLogger l k =>
    refine ⟨0, fun _ _ => hmapsim _ ?_⟩
    unfold setSinkOfLogger getSink
    simp only [hk]
    cases s.sinks.find k with
    | none => exact .ret _ hrefl
    | some g' => exact hlog _ _ _
  | resetSinkOfLogger l => exact ⟨0, fun _ _ => hmapsim _ (hlog _ _ _)⟩
  | setLevelOfLogger l v => exact ⟨0, fun _ _ => hmapsim _ (hlog _ _ _)⟩
  | resetLevelOfLogger l => exact ⟨0, fun _ _ => hmapsim _ (hlog _ _ _)⟩
  | onHandle i m =>
    refine ⟨0, fun _ _ => ?_⟩
    simp only [step]
    have hvalid : m.valid ⟨s.debug, s.ngroups, s.grp, s.nloggers, s.lgr, s.alive, s.nsinks, s.sinkName, tg, tl, tk, s.configured, s.warned, to⟩
        ↔ m.valid s := by cases m <;> exact Iff.rfl
    by_cases hc : i < s.nloggers ∧ s.alive i = true ∧ m.valid s
    · rw [if_pos hc, if_pos ⟨hc.1, hc.2.1, hvalid.2 hc.2.2⟩]
      exact .ret _ ⟨rfl, hg, hl, hk⟩
    · rw [if_neg hc, if_neg (fun h => hc ⟨h.1, h.2.1, hvalid.1 h.2.2⟩)]
      exact .ret _ hrefl
  | drop i => exact ⟨0, fun _ _ => .ret _ ⟨rfl, hg, hl, hk⟩⟩

end System
end Soralog
