import Verif.Proofs.SystemTree
/-!
# Exactly when the calls of the logging system come to an end
-/
namespace Soralog
namespace System

open Hierarchy

/-- only the groups other than `g` matter -/
theorem halts_congr {parent parent' : Nat → Option Nat} {stop stop' : Nat → Bool} {g : Nat}
    (hp : ∀ x, x ≠ g → parent' x = parent x ∨ (parent' x = none ∧ parent x = some g) ∨ (parent' x = some g ∧ parent x = none))
    (hs : ∀ x, x ≠ g → stop' x = stop x) {x : Nat}
    (h : Halts parent stop g x) : Halts parent' stop' g x := by
  induction h with
  | here => exact .here
  | @stopped x h =>
    by_cases hx : x = g
    · subst hx; exact .here
    · exact .stopped (by rw [hs x hx]; exact h)
  | @root x h =>
    by_cases hx : x = g
    · subst hx; exact .here
    · rcases hp x hx with h1 | ⟨h1, h2⟩ | ⟨h1, _⟩
      · exact .root (h1.trans h)
      · exact .root h1
      · exact .up h1 .here
  | @up x p h _ ih =>
    by_cases hx : x = g
    · subst hx; exact .here
    · rcases hp x hx with h1 | ⟨h1, _⟩ | ⟨_, h2⟩
      · exact .up (h1.trans h) ih
      · exact .root h1
      · rw [h] at h2; cases h2

theorem halts_visit {h : Nat → Group} {stop : Group → Bool} {g : Nat} {passed : Nat → Option (Option Nat)}
    (hpass : ∀ x, passed x ≠ none → Halts (fun y => (h y).parent) (fun y => stop (h y)) g x) :
    ∀ (fuel x : Nat) (st : Stages), visit h stop g passed fuel x st ≠ none → Halts (fun y => (h y).parent) (fun y => stop (h y)) g x := by
  intro fuel
  induction fuel with
  | zero => intro x st hv; exact absurd rfl hv
  | succ fuel ih =>
    intro x st hv
    unfold visit at hv
    cases hpx : passed x with
    | some r => exact hpass x (by rw [hpx]; simp)
    | none =>
      by_cases hg : x = g
      · subst hg; exact .here
      · by_cases hs : stop (h x) = true
        · exact .stopped hs
        · cases hp : (h x).parent with
          | none => exact .root hp
          | some p =>
            refine .up hp (ih p st fun hn => hv ?_)
            simp only [hpx, if_neg hg, if_neg hs, hp, hn]

theorem visitAll_halts {h : Nat → Group} {stop : Group → Bool} {g : Nat} (rs : List Nat)
    (hr : ∀ x ∈ rs, Halts (fun y => (h y).parent) (fun y => stop (h y)) g x) :
    ∃ n, ∀ fuel, n ≤ fuel → ∀ passed st, visitAll h stop g fuel rs passed st ≠ none := by
  induction rs with
  | nil => exact ⟨0, fun fuel _ passed st => by simp [visitAll]⟩
  | cons r rs ih =>
    obtain ⟨n, hn⟩ := ih fun x hx => hr x (List.mem_cons_of_mem _ hx)
    -- a bound for `r` that does not depend on what has been passed
    have hb : ∃ m, ∀ fuel, m ≤ fuel → ∀ passed st, visit h stop g passed fuel r st ≠ none := by
      have hx := hr r List.mem_cons_self
      clear hn ih hr
      have hpos : ∀ {fuel : Nat}, 1 ≤ fuel → ∃ f, fuel = f + 1 := fun {fuel} hf => ⟨fuel - 1, by omega⟩
      induction hx with
      | here =>
        refine ⟨1, fun fuel hf passed st => ?_⟩
        obtain ⟨f, rfl⟩ := hpos hf
        unfold visit
        cases passed g <;> simp
      | @stopped x hs =>
        refine ⟨1, fun fuel hf passed st => ?_⟩
        obtain ⟨f, rfl⟩ := hpos hf
        unfold visit
        cases passed x with
        | some r => simp
        | none =>
          by_cases hg : x = g
          · simp [hg]
          · simp [hg, hs]
      | @root x hp =>
        refine ⟨1, fun fuel hf passed st => ?_⟩
        obtain ⟨f, rfl⟩ := hpos hf
        unfold visit
        cases passed x with
        | some r => simp
        | none =>
          by_cases hg : x = g
          · simp [hg]
          · simp only [hg, if_false, hp]
            split <;> simp
      | @up x p hp _ ih =>
        obtain ⟨n, hn⟩ := ih
        refine ⟨n + 1, fun fuel hf passed st => ?_⟩
        obtain ⟨f, rfl⟩ := hpos (fuel := fuel) (by omega)
        unfold visit
        cases passed x with
        | some r => simp
        | none =>
          by_cases hg : x = g
          · simp [hg]
          · simp only [hg, if_false, hp]
            split
            · simp
            · have := hn f (by omega) passed st
              split
              · rename_i hv; exact absurd hv this
              · simp
              · simp
    obtain ⟨m, hm⟩ := hb
    refine ⟨m + n, fun fuel hf passed st => ?_⟩
    unfold visitAll
    have h1 := hm fuel (by omega) passed st
    split
    · rename_i hv; exact absurd hv h1
    · exact hn fuel (by omega) _ _

theorem halts_visitAll {h : Nat → Group} {stop : Group → Bool} {g fuel : Nat} : ∀ (rs : List Nat) (passed : Nat → Option (Option Nat)) (st : Stages),
    (∀ x, passed x ≠ none → Halts (fun y => (h y).parent) (fun y => stop (h y)) g x) →
    visitAll h stop g fuel rs passed st ≠ none → ∀ x ∈ rs, Halts (fun y => (h y).parent) (fun y => stop (h y)) g x := by
  intro rs
  induction rs with
  | nil => intro _ _ _ _ x hx; cases hx
  | cons r rs ih =>
    intro passed st hpass hv
    unfold visitAll at hv
    cases hr : visit h stop g passed fuel r st with
    | none => rw [hr] at hv; exact absurd rfl hv
    | some w =>
      obtain ⟨n, st'⟩ := w
      have h1 := halts_visit hpass fuel r st (by rw [hr]; simp)
      rw [hr] at hv
      have h2 := ih (upd passed r (some n)) st' (fun x hx => by
        by_cases he : x = r
        · subst he; exact h1
        · rw [upd_other _ _ he] at hx; exact hpass x hx) hv
      intro x hx
      rcases List.mem_cons.1 hx with rfl | hx
      · exact h1
      · exact h2 x hx

/-- `P` holds for some bound only if `C` holds, and then for all large ones -/
def Exactly (P : Nat → Prop) (C : Prop) : Prop := ((∃ fuel, P fuel) → C) ∧ (C → ∃ n, ∀ fuel, n ≤ fuel → P fuel)

theorem Exactly.congr {P : Nat → Prop} {C D : Prop} (h : Exactly P C) (hd : C ↔ D) : Exactly P D :=
  ⟨fun hp => hd.1 (h.1 hp), fun d => h.2 (hd.2 d)⟩

/-- the propagation ends, exactly -/
theorem propagate_halts {stop : Group → Bool} {f : Change} {up : (Nat → Group) → Logger → Logger} {g : Nat} {s : Sys} (hu : s.groups.Unique) :
    Exactly (fun fuel => propagate fuel stop f up g s ≠ none) (∀ x, s.registered x → Halts s.parent (fun y => stop (s.grp y)) g x) := by
  constructor
  · rintro ⟨fuel, h⟩ x hx
    refine halts_visitAll (h := s.grp) (fuel := fuel) (s.groups.map (·.2)) (fun _ => none) [] (fun _ h => absurd rfl h) (fun hv => h ?_) x ((registered_mem hu).1 hx)
    unfold propagate
    rw [hv]
  · intro h
    obtain ⟨n, hn⟩ := visitAll_halts (h := s.grp) (stop := stop) (g := g) (s.groups.map (·.2)) fun x hx => h x ((registered_mem hu).2 hx)
    refine ⟨n, fun fuel hf hp => ?_⟩
    have := hn fuel hf (fun _ => none) []
    unfold propagate at hp
    split at hp
    · rename_i hv; exact this hv
    · cases hp

/-! ### the walk -/

theorem walk_halts {h : Nat → Group} {g x : Nat} (hx : Halts (fun y => (h y).parent) (fun _ => false) g x) :
    ∃ n, ∀ fuel, n ≤ fuel → walk h g fuel (some x) ≠ none := by
  induction hx with
  | here =>
    refine ⟨1, fun fuel hf => ?_⟩
    obtain ⟨f, rfl⟩ : ∃ f, fuel = f + 1 := ⟨fuel - 1, by omega⟩
    simp [walk]
  | stopped hs => cases hs
  | @root x hp =>
    refine ⟨1, fun fuel hf => ?_⟩
    obtain ⟨f, rfl⟩ : ∃ f, fuel = f + 1 := ⟨fuel - 1, by omega⟩
    unfold walk
    split
    · simp
    · rw [hp]; simp [walk]
  | @up x p hp _ ih =>
    obtain ⟨n, hn⟩ := ih
    refine ⟨n + 1, fun fuel hf => ?_⟩
    obtain ⟨f, rfl⟩ : ∃ f, fuel = f + 1 := ⟨fuel - 1, by omega⟩
    unfold walk
    split
    · simp
    · rw [hp]; exact hn f (by omega)

theorem halts_walk {h : Nat → Group} {g : Nat} : ∀ (fuel x : Nat), walk h g fuel (some x) ≠ none → Halts (fun y => (h y).parent) (fun _ => false) g x := by
  intro fuel
  induction fuel with
  | zero => intro x hv; exact absurd rfl hv
  | succ fuel ih =>
    intro x hv
    unfold walk at hv
    by_cases hg : x = g
    · subst hg; exact .here
    · rw [if_neg hg] at hv
      cases hp : (h x).parent with
      | none => exact .root hp
      | some p => rw [hp] at hv; exact .up hp (ih p hv)

theorem walk_true {h : Nat → Group} {g : Nat} : ∀ (fuel x : Nat), walk h g fuel (some x) = some true → x = g ∨ Ancestor (fun y => (h y).parent) g x := by
  intro fuel
  induction fuel with
  | zero => intro x hv; cases hv
  | succ fuel ih =>
    intro x hv
    unfold walk at hv
    by_cases hg : x = g
    · exact .inl hg
    · rw [if_neg hg] at hv
      cases hp : (h x).parent with
      | none => rw [hp] at hv; simp [walk] at hv
      | some p =>
        rw [hp] at hv
        rcases ih p hv with h1 | h1
        · subst h1; exact .inr (.parent hp)
        · exact .inr (.above hp h1)

theorem walk_false {h : Nat → Group} {g : Nat} : ∀ (fuel x : Nat), walk h g fuel (some x) = some false → x ≠ g ∧ ¬ Ancestor (fun y => (h y).parent) g x := by
  intro fuel
  induction fuel with
  | zero => intro x hv; cases hv
  | succ fuel ih =>
    intro x hv
    unfold walk at hv
    by_cases hg : x = g
    · rw [if_pos hg] at hv; cases hv
    · rw [if_neg hg] at hv
      refine ⟨hg, fun ha => ?_⟩
      cases ha with
      | parent hp => rw [hp] at hv; exact (ih _ hv).1 rfl
      | above hp h1 => rw [hp] at hv; exact (ih _ hv).2 h1

/-! ### the calls -/

theorem map_diverge {α β : Type} {f : α → β} {r : Res α} : r.map f = .diverge ↔ r = .diverge := by
  cases r <;> simp [Res.map]

theorem ofOption_diverge {r : Option Sys} : ofOption r = .diverge ↔ r = none := by
  cases r <;> simp [ofOption]

theorem level_ends_iff {s : Sys} (hu : s.groups.Unique) (g : Nat) (l : Option Level) :
    Exactly (fun fuel => setLevelOfGroupPtr fuel g l s ≠ none) (∀ x, s.registered x → Halts s.parent s.levelFixed g x) := by
  simp only [setLevelOfGroupPtr_eq]
  have h1 : ∀ x, x ≠ g → baseLevel s.grp g l x = s.grp x := fun x hx => baseLevel_other hx
  refine (propagate_halts (s := { s with grp := baseLevel s.grp g l }) hu).congr (forall_congr' fun x => imp_congr_right fun _ => ⟨halts_congr ?_ ?_, halts_congr ?_ ?_⟩)
  · intro y hy; exact .inl (by show (s.grp y).parent = (baseLevel s.grp g l y).parent; rw [h1 y hy])
  · intro y hy; show (s.grp y).levelOv = (baseLevel s.grp g l y).levelOv; rw [h1 y hy]
  · intro y hy; exact .inl (by show (baseLevel s.grp g l y).parent = (s.grp y).parent; rw [h1 y hy])
  · intro y hy; show (baseLevel s.grp g l y).levelOv = (s.grp y).levelOv; rw [h1 y hy]

theorem sink_ends_iff {s : Sys} (hu : s.groups.Unique) (g : Nat) (k : Option Nat) :
    Exactly (fun fuel => setSinkOfGroupPtr fuel g k s ≠ none) (∀ x, s.registered x → Halts s.parent s.sinkFixed g x) := by
  simp only [setSinkOfGroupPtr_eq]
  have h1 : ∀ x, x ≠ g → baseSink s.grp g k x = s.grp x := fun x hx => baseSink_other hx
  refine (propagate_halts (s := { s with grp := baseSink s.grp g k }) hu).congr (forall_congr' fun x => imp_congr_right fun _ => ⟨halts_congr ?_ ?_, halts_congr ?_ ?_⟩)
  · intro y hy; exact .inl (by show (s.grp y).parent = (baseSink s.grp g k y).parent; rw [h1 y hy])
  · intro y hy; show (s.grp y).sinkOv = (baseSink s.grp g k y).sinkOv; rw [h1 y hy]
  · intro y hy; exact .inl (by show (baseSink s.grp g k y).parent = (s.grp y).parent; rw [h1 y hy])
  · intro y hy; show (baseSink s.grp g k y).sinkOv = (s.grp y).sinkOv; rw [h1 y hy]

theorem relink_either (h : Nat → Group) (g : Nat) (p : Option Nat) {y : Nat} (hy : y ≠ g) :
    relink h g p y = (h y).parent ∨ relink h g p y = none ∧ (h y).parent = some g := by
  unfold relink
  rw [if_neg hy]
  split
  · rename_i h1; exact .inr ⟨rfl, h1.2⟩
  · exact .inl rfl

theorem parent_ends_iff {s : Sys} (hu : s.groups.Unique) (g : Nat) (p : Option Nat) :
    Exactly (fun fuel => setParentOfGroupPtr fuel g p s ≠ none) (∀ x, s.registered x → Halts s.parent (fun y => s.levelFixed y && s.sinkFixed y) g x) := by
  simp only [setParentOfGroupPtr_eq]
  have h1 : ∀ x, x ≠ g → baseParent s.grp g p x = { s.grp x with parent := relink s.grp g p x } := fun x hx => baseParent_other _ _ _ hx
  refine (propagate_halts (s := { s with grp := baseParent s.grp g p }) hu).congr (forall_congr' fun x => imp_congr_right fun _ => ⟨halts_congr ?_ ?_, halts_congr ?_ ?_⟩)
  · intro y hy
    have h2 : Sys.parent { s with grp := baseParent s.grp g p } y = relink s.grp g p y := by
      show (baseParent s.grp g p y).parent = _; rw [h1 y hy]
    rcases relink_either s.grp g p hy with h3 | ⟨h3, h4⟩
    · exact .inl (by rw [h2, h3]; rfl)
    · exact .inr (.inr ⟨h4, by rw [h2, h3]⟩)
  · intro y hy
    show ((s.grp y).levelOv && (s.grp y).sinkOv) = ((baseParent s.grp g p y).levelOv && (baseParent s.grp g p y).sinkOv)
    rw [h1 y hy]
  · intro y hy
    have h2 : Sys.parent { s with grp := baseParent s.grp g p } y = relink s.grp g p y := by
      show (baseParent s.grp g p y).parent = _; rw [h1 y hy]
    rcases relink_either s.grp g p hy with h3 | ⟨h3, h4⟩
    · exact .inl (by rw [h2, h3]; rfl)
    · exact .inr (.inl ⟨by rw [h2, h3], h4⟩)
  · intro y hy
    show ((baseParent s.grp g p y).levelOv && (baseParent s.grp g p y).sinkOv) = ((s.grp y).levelOv && (s.grp y).sinkOv)
    rw [h1 y hy]

theorem Exactly.named {r : Nat → Option Sys} {C : Prop} (h : Exactly (fun fuel => r fuel ≠ none) C) :
    Exactly (fun fuel => (ofOption (r fuel)).map Val.bool ≠ .diverge) C := by
  simp only [ne_eq, map_diverge, ofOption_diverge]
  exact h

theorem Exactly.always {P : Nat → Prop} {C : Prop} (hp : ∀ fuel, P fuel) (hc : C) : Exactly P C := ⟨fun _ => hc, fun _ => ⟨0, fun fuel _ => hp fuel⟩⟩

theorem onLogger_ends (name : Text) (e : Bool) (up : Logger → Logger) (s : Sys) : onLogger name e up s ≠ .diverge := by
  unfold onLogger
  repeat' split
  all_goals (intro h; cases h)

/-- Exactly when a call ends. -/
theorem step_exactly {s : Sys} (hu : s.groups.Unique) (op : Op) : Exactly (fun fuel => step fuel s op ≠ .diverge) (WillEnd s op) := by
  cases op with
  | makeSink n => exact .always (fun fuel h => by cases h) trivial
  | makeGroup n p k l =>
    refine .always (fun fuel h => ?_) trivial
    simp only [step, map_diverge, makeGroup] at h
    revert h
    repeat' split
    all_goals (intro h; cases h)
  | setFallbackGroup n =>
    refine .always (fun fuel h => ?_) trivial
    simp only [step, map_diverge, setFallbackGroup] at h
    split at h <;> cases h
  | getLogger n g k l =>
    refine .always (fun fuel h => ?_) trivial
    simp only [step, map_diverge, getLogger] at h
    revert h
    repeat' split
    all_goals (intro h; cases h)
  | setLevelOfGroup n l =>
    simp only [step, setLevelOfGroup]
    cases hg : s.groups.find n with
    | none => exact .always (fun _ h => by cases h) fun g h => by rw [hg] at h; cases h
    | some g =>
      refine (level_ends_iff hu g (some l)).named.congr ⟨fun h g' hg' => ?_, fun h => h g hg⟩
      rw [hg] at hg'; cases hg'; exact h
  | resetLevelOfGroup n =>
    simp only [step, resetLevelOfGroup]
    cases hg : s.groups.find n with
    | none => exact .always (fun _ h => by cases h) fun g h => by rw [hg] at h; cases h
    | some g =>
      refine (level_ends_iff hu g none).named.congr ⟨fun h g' hg' => ?_, fun h => h g hg⟩
      rw [hg] at hg'; cases hg'; exact h
  | setSinkOfGroup n kn =>
    simp only [step, setSinkOfGroup, getSink]
    cases hk : s.sinks.find kn with
    | none => exact .always (fun _ h => by cases h) fun h => absurd hk h
    | some k =>
      cases hg : s.groups.find n with
      | none => exact .always (fun _ h => by cases h) fun _ g h => by rw [hg] at h; cases h
      | some g =>
        refine (sink_ends_iff hu g (some k)).named.congr ⟨fun h _ g' hg' => ?_, fun h => h (by rw [hk]; simp) g hg⟩
        rw [hg] at hg'; cases hg'; exact h
  | resetSinkOfGroup n =>
    simp only [step, resetSinkOfGroup]
    cases hg : s.groups.find n with
    | none => exact .always (fun _ h => by cases h) fun g h => by rw [hg] at h; cases h
    | some g =>
      refine (sink_ends_iff hu g none).named.congr ⟨fun h g' hg' => ?_, fun h => h g hg⟩
      rw [hg] at hg'; cases hg'; exact h
  | unsetParentOfGroup n =>
    simp only [step, unsetParentOfGroup]
    cases hg : s.groups.find n with
    | none => exact .always (fun _ h => by cases h) fun g h => by rw [hg] at h; cases h
    | some g =>
      refine (parent_ends_iff hu g none).named.congr ⟨fun h g' hg' => ?_, fun h => h g hg⟩
      rw [hg] at hg'; cases hg'; exact h
  | setParentOfGroup n pn =>
    simp only [step, setParentOfGroup]
    cases hg : s.groups.find n with
    | none => exact .always (fun _ h => by cases h) fun g p h => by rw [hg] at h; cases h
    | some g =>
      cases hp : s.groups.find pn with
      | none => exact .always (fun _ h => by cases h) fun g p _ h => by rw [hp] at h; cases h
      | some p =>
        have hpe := (parent_ends_iff hu g (some p)).named
        simp only
        -- the specification for these two groups
        refine Exactly.congr (C := (∀ q, s.parent p = some q → Halts s.parent (fun _ => false) g q) ∧
          (Ancestor s.parent g p ∧ s.parent p ≠ some g ∨
            ∀ x, s.registered x → Halts s.parent (fun y => s.levelFixed y && s.sinkFixed y) g x)) ?_
          ⟨fun h g' p' hg' hp' => by rw [hg] at hg'; rw [hp] at hp'; cases hg'; cases hp'; exact h, fun h => h g p hg hp⟩
        by_cases hd : (s.grp p).parent = some g
        · simp only [if_neg (show ¬ (s.grp p).parent ≠ some g from fun h => h hd)]
          refine hpe.congr ⟨fun h => ⟨fun q hq => ?_, .inr h⟩, fun h => ?_⟩
          · rw [Sys.parent, hd] at hq; cases hq; exact .here
          · rcases h.2 with ⟨_, h1⟩ | h1
            · exact absurd hd h1
            · exact h1
        · simp only [if_pos hd]
          constructor
          · rintro ⟨fuel, h⟩
            constructor
            · intro q hq
              refine halts_walk (h := s.grp) fuel q fun hw => h ?_
              have hq : (s.grp p).parent = some q := hq
              rw [hq, hw]
              rfl
            · cases hw : walk s.grp g fuel (s.grp p).parent with
              | none => rw [hw] at h; exact absurd rfl h
              | some b =>
                rw [hw] at h
                cases b with
                | true =>
                  cases hq : (s.grp p).parent with
                  | none => rw [hq] at hw; simp [walk] at hw
                  | some q =>
                    rw [hq] at hw
                    refine .inl ⟨?_, hd⟩
                    rcases walk_true fuel q hw with rfl | h1
                    · exact absurd hq hd
                    · exact .above hq h1
                | false => exact .inr (hpe.1 ⟨fuel, h⟩)
          · rintro ⟨h1, h2⟩
            have hw : ∃ n, ∀ fuel, n ≤ fuel → walk s.grp g fuel (s.grp p).parent ≠ none := by
              cases hq : (s.grp p).parent with
              | none => exact ⟨0, fun fuel _ => by simp [walk]⟩
              | some q => exact walk_halts (h1 q hq)
            obtain ⟨n1, hn1⟩ := hw
            rcases h2 with ⟨ha, _⟩ | h2
            · refine ⟨n1, fun fuel hf => ?_⟩
              dsimp only
              cases hw : walk s.grp g fuel (s.grp p).parent with
              | none => exact absurd hw (hn1 fuel hf)
              | some b =>
                cases b with
                | true => intro h; cases h
                | false =>
                  cases ha with
                  | parent hq => exact absurd hq hd
                  | above hq h3 =>
                    have hq : (s.grp p).parent = some _ := hq
                    rw [hq] at hw
                    exact absurd h3 (walk_false fuel _ hw).2
            · obtain ⟨n2, hn2⟩ := hpe.2 h2
              refine ⟨n1 + n2, fun fuel hf => ?_⟩
              dsimp only
              cases hw : walk s.grp g fuel (s.grp p).parent with
              | none => exact absurd hw (hn1 fuel (by omega))
              | some b =>
                cases b with
                | true => intro h; cases h
                | false => exact hn2 fuel (by omega)
  | setGroupOfLogger l g =>
    refine .always (fun fuel h => ?_) trivial
    simp only [step, map_diverge, setGroupOfLogger] at h
    split at h
    · cases h
    · exact onLogger_ends _ _ _ _ h
  | setSinkOfLogger l g =>
    refine .always (fun fuel h => ?_) trivial
    simp only [step, map_diverge, setSinkOfLogger] at h
    split at h
    · cases h
    · exact onLogger_ends _ _ _ _ h
  | resetSinkOfLogger l => exact .always (fun fuel h => onLogger_ends _ _ _ _ (map_diverge.1 h)) trivial
  | setLevelOfLogger l v => exact .always (fun fuel h => onLogger_ends _ _ _ _ (map_diverge.1 h)) trivial
  | resetLevelOfLogger l => exact .always (fun fuel h => onLogger_ends _ _ _ _ (map_diverge.1 h)) trivial
  | onHandle i m =>
    refine .always (fun fuel h => ?_) trivial
    simp only [step] at h
    split at h <;> cases h
  | drop i => exact .always (fun fuel h => by cases h) trivial

end System
end Soralog
