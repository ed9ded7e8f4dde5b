import Verif.Proofs.YamlSpec
/-!
# Rejected nodes are reported
-/
namespace Soralog
namespace Yaml

open Soralog.System

/-- the error flag is kept, and it is set if the value returned satisfies `Q` -/
def Tells {α : Type} (m : M α) (Q : α → Prop) : Prop :=
  ∀ s a s', m s = .ok a s' → (s.hasError = true → s'.hasError = true) ∧ (Q a → s'.hasError = true)

theorem Tells.bind {α β : Type} {m : M α} {k : α → M β} {Q : α → Prop} {R : β → Prop} (hm : Tells m Q)
    (hk : ∀ a, Tells (k a) fun b => R b ∧ ¬ Q a) : Tells (m >>= k) R := by
  intro s b s' h
  rw [bind_def] at h
  cases he : m s with
  | ok a s1 =>
    rw [he] at h
    have h1 := hm s a s1 he
    have h2 := hk a s1 b s' h
    refine ⟨fun hs => h2.1 (h1.1 hs), fun hr => ?_⟩
    by_cases hq : Q a
    · exact h2.1 (h1.2 hq)
    · exact h2.2 ⟨hr, hq⟩
  | throw s1 => rw [he] at h; cases h
  | ub => rw [he] at h; cases h
  | diverge => rw [he] at h; cases h

theorem Tells.mono {α : Type} {m : M α} {Q R : α → Prop} (h : Tells m Q) (hr : ∀ a, R a → Q a) : Tells m R :=
  fun s a s' he => ⟨(h s a s' he).1, fun hra => (h s a s' he).2 (hr a hra)⟩

theorem Tells.of_tri {α : Type} {m : M α} {Q : α → Prop} (h : Tri Emits Q m) : Tells m fun a => ¬ Q a := by
  intro s a s' he
  have h1 := h s
  rw [he] at h1
  obtain ⟨ps, _, h2, _⟩ := h1.1
  exact ⟨fun hs => by rw [h2, hs]; rfl, fun hq => absurd h1.2 hq⟩

theorem Tells.pure {α : Type} {a : α} {Q : α → Prop} (h : ¬ Q a) : Tells (Pure.pure a : M α) Q := by
  intro s b s' he
  cases he
  exact ⟨id, fun hq => absurd hq h⟩

theorem Tells.throw {α : Type} {Q : α → Prop} : Tells (Yaml.throw : M α) Q := by
  intro s b s' he
  cases he

theorem Tells.error (p : Problem) {Q : Unit → Prop} : Tells (error p) Q := by
  intro s b s' he
  cases he
  exact ⟨fun _ => rfl, fun _ => rfl⟩

theorem Tells.groupNoName (t : Text) {Q : Unit → Prop} : Tells (groupNoName t) Q := by
  intro s b s' he
  cases he
  exact ⟨fun _ => rfl, fun _ => rfl⟩

/-- an error is reported, then a value is returned -/
theorem Tells.errorThen {α : Type} (p : Problem) (a : α) {Q : α → Prop} :
    Tells (do Yaml.error p; Pure.pure a : M α) Q :=
  Tells.bind (Q := fun _ => True) (Tells.error p) fun _ => Tells.pure fun h => h.2 trivial

theorem M.pure_bind' {α β : Type} (a : α) (k : α → M β) : ((Pure.pure a : M α) >>= k) = k a := rfl

theorem Tells.head {α β : Type} {m : M α} {k : α → M β} {R : β → Prop} (hm : Tells m fun _ => True)
    (hk : ∀ a, Tri Emits Any (k a)) : Tells (m >>= k) R :=
  Tells.bind hm fun a => (Tells.of_tri (hk a)).mono fun _ h => absurd trivial h.2

theorem Tells.tail {α β : Type} {m : M α} {Q : α → Prop} {k : α → M β} {R : β → Prop} (hm : Tri Emits Q m)
    (hk : ∀ a, Tells (k a) R) : Tells (m >>= k) R :=
  Tells.bind (Q := fun _ => False) ((Tells.of_tri hm).mono fun _ h => h.elim) fun a => (hk a).mono fun _ h => h.1

theorem tri_create (W : World) (name : Text) (spec : Spec) : Tri Emits Any (createSink W name spec) :=
  tri_createSink fun _ _ _ => .same rfl rfl rfl

theorem tells_parseNeeded (W : World) (key name : Text) (e : List (Nat × Nat)) (h : textAt W e key = none) :
    Tells (parseNeeded W key name e) fun _ => True := by
  unfold parseNeeded
  cases hp : prop W e key with
  | none => exact Tells.errorThen _ _
  | some n =>
    cases n with
    | scalar t => rw [textAt_scalar hp] at h; cases h
    | _ => exact Tells.errorThen _ _

theorem tells_parseSinkToFile (W : World) (name : Text) (e : List (Nat × Nat)) (h : textAt W e "path".toList = none) :
    Tells (parseSinkToFile W name e) fun _ => True := by
  unfold parseSinkToFile
  refine Tells.head (tells_parseNeeded W _ name e h) fun o => ?_
  refine Tri.bind (tri_parseArgs W e name _) fun a _ => Tri.bind (tri_parseLevel W e _) fun l _ =>
    Tri.bind (tri_checkKeys W e _ _ (fun _ => rfl) fun _ => rfl) fun _ _ => ?_
  cases o with
  | none => exact Tri.pure trivial
  | some p => exact Tri.bind (tri_warnIfExists name) fun _ _ => tri_create W _ _

theorem tells_parseSinkToSyslog (W : World) (name : Text) (e : List (Nat × Nat)) (h : textAt W e "ident".toList = none) :
    Tells (parseSinkToSyslog W name e) fun _ => True := by
  unfold parseSinkToSyslog
  refine Tells.head (tells_parseNeeded W _ name e h) fun o => ?_
  refine Tri.bind (tri_parseArgs W e name _) fun a _ => Tri.bind (tri_parseLevel W e _) fun l _ =>
    Tri.bind (tri_checkKeys W e _ _ (fun _ => rfl) fun _ => rfl) fun _ _ => ?_
  cases o with
  | none => exact Tri.pure trivial
  | some p => exact Tri.bind (tri_warnIfExists name) fun _ _ => tri_create W _ _

theorem tells_parseMultisink (W : World) (name : Text) (e : List (Nat × Nat)) (h : itemsAt W e = none) :
    Tells (parseMultisink W name e) fun _ => True := by
  unfold parseMultisink
  refine Tells.head ?_ fun o => ?_
  · unfold itemsAt at h
    cases hp : prop W e "sinks".toList with
    | none => exact Tells.errorThen _ _
    | some n =>
      cases n with
      | seq t => rw [hp] at h; cases h
      | _ => exact Tells.errorThen _ _
  refine Tri.bind (tri_parseLevel W e _) fun l _ =>
    Tri.bind (tri_checkKeys W e _ _ (fun _ => rfl) fun _ => rfl) fun _ _ => ?_
  cases o with
  | none => exact Tri.pure trivial
  | some items =>
    simp only
    cases items.mapM (asText W) with
    | none => exact Tri.throw
    | some names => exact Tri.bind (tri_collect W name _) fun ks _ => tri_create W _ _

/-- a sink node with a property 'name' that is not usable sets the error flag -/
theorem tells_parseSink (W : World) (i : Nat) (e : List (Nat × Nat)) (hname : (prop W e "name".toList).isSome)
    (h : readSink W e = some none) : Tells (parseSink W i e) fun _ => True := by
  unfold parseSink
  have hkt : ∀ (name type : Option Text), (∀ t, name = some t → prop W e "name".toList = some (.scalar t)) → Tri Emits Any
      (match name, type with
      | some name, some type =>
        if name = star then error .sinkReserved
        else if type = "console".toList then parseSinkToConsole W name e
        else if type = "file".toList then parseSinkToFile W name e
        else if type = "syslog".toList then parseSinkToSyslog W name e
        else if type = "multisink".toList then parseMultisink W name e
        else error (.sinkUnknownType name type)
      | _, _ => pure () : M Unit) := by
    intro name type hname
    split
    · split
      · exact Reads.error _ rfl rfl
      · rename_i hn
        have hp := hname _ rfl
        repeat' split
        · exact tri_parseSinkToConsole W hn hp
        · exact tri_parseSinkToFile W hn hp
        · exact tri_parseSinkToSyslog W hn hp
        · exact tri_parseMultisink W hn hp
        · exact Reads.error _ rfl rfl
    · exact Tri.pure trivial
  have htype : Tri Emits Any (match prop W e "type".toList with
      | none => do
        error (.sinkNoType i)
        pure none
      | some (.scalar t) => pure (some t)
      | some _ => do
        error (.sinkTypeNotScalar i)
        pure none : M (Option Text)) := by
    split
    · exact Tri.bind (Reads.error _ rfl rfl) fun _ _ => Tri.pure trivial
    · exact Tri.pure trivial
    · exact Tri.bind (Reads.error _ rfl rfl) fun _ _ => Tri.pure trivial
  have hbad : ∀ p : Problem, Tells (do
      let name ← (do error p; pure none : M (Option Text))
      let type ← (match prop W e "type".toList with
        | none => do
          error (.sinkNoType i)
          pure none
        | some (.scalar t) => pure (some t)
        | some _ => do
          error (.sinkTypeNotScalar i)
          pure none : M (Option Text))
      match name, type with
      | some name, some type =>
        if name = star then error .sinkReserved
        else if type = "console".toList then parseSinkToConsole W name e
        else if type = "file".toList then parseSinkToFile W name e
        else if type = "syslog".toList then parseSinkToSyslog W name e
        else if type = "multisink".toList then parseMultisink W name e
        else error (.sinkUnknownType name type)
      | _, _ => pure () : M Unit) fun _ => True := by
    intro p s u s' he
    rw [bind_def] at he
    have he' : ((do
      let type ← (match prop W e "type".toList with
        | none => do
          error (.sinkNoType i)
          pure none
        | some (.scalar t) => pure (some t)
        | some _ => do
          error (.sinkTypeNotScalar i)
          pure none : M (Option Text))
      (match (none : Option Text), type with
      | some name, some type =>
        if name = star then error .sinkReserved
        else if type = "console".toList then parseSinkToConsole W name e
        else if type = "file".toList then parseSinkToFile W name e
        else if type = "syslog".toList then parseSinkToSyslog W name e
        else if type = "multisink".toList then parseMultisink W name e
        else error (.sinkUnknownType name type)
      | _, _ => pure () : M Unit) : M Unit) { s with errors := s.errors ++ [p], hasError := true }) = .ok u s' := he
    have h1 := Tri.bind htype (fun type _ => hkt none type (fun t ht => by cases ht)) { s with errors := s.errors ++ [p], hasError := true }
    rw [he'] at h1
    obtain ⟨_, _, h2, _⟩ := h1.1
    have : s'.hasError = true := by rw [h2]; rfl
    exact ⟨fun _ => this, fun _ => this⟩
  cases hp : prop W e "name".toList with
  | none => rw [hp] at hname; cases hname
  | some nn =>
    cases nn with
    | scalar name =>
      simp only [M.pure_bind']
      cases ht : prop W e "type".toList with
      | none => exact Tells.head (Tells.errorThen _ _) fun type => hkt (some name) type fun t h => by cases h; exact hp
      | some tn =>
        cases tn with
        | scalar type =>
          simp only [M.pure_bind']
          have hb : name = star ∨ readBody W type e = some none := by
            unfold readSink at h
            rw [textAt_scalar hp, textAt_scalar ht] at h
            simp only at h
            by_cases hs : name = star
            · exact .inl hs
            · rw [if_neg hs] at h
              cases hb : readBody W type e with
              | none => rw [hb] at h; cases h
              | some o =>
                cases o with
                | none => exact .inr rfl
                | some d => rw [hb] at h; cases h
          split
          · exact Tells.error _
          · rename_i hs
            have hb := hb.resolve_left hs
            unfold readBody at hb
            split at hb
            · rename_i h1
              exfalso
              cases h2 : readColor W e with
              | none => rw [h2] at hb; cases hb
              | some c =>
                cases h3 : readArgs W true e with
                | none => rw [h2, h3] at hb; cases hb
                | some a =>
                  rw [h2, h3] at hb
                  have hb := keysOk_some hb
                  cases hb
            · rename_i h1
              rw [if_neg h1]
              split at hb
              · rename_i h2
                rw [if_pos h2]
                cases h3 : readArgs W false e with
                | none => rw [h3] at hb; cases hb
                | some a =>
                  rw [h3] at hb
                  have hb := keysOk_some hb
                  refine tells_parseSinkToFile W name e ?_
                  cases h4 : textAt W e "path".toList with
                  | none => rfl
                  | some x => rw [h4] at hb; cases hb
              · rename_i h2
                rw [if_neg h2]
                split at hb
                · rename_i h2
                  rw [if_pos h2]
                  cases h3 : readArgs W false e with
                  | none => rw [h3] at hb; cases hb
                  | some a =>
                    rw [h3] at hb
                    have hb := keysOk_some hb
                    refine tells_parseSinkToSyslog W name e ?_
                    cases h4 : textAt W e "ident".toList with
                    | none => rfl
                    | some x => rw [h4] at hb; cases hb
                · rename_i h2
                  rw [if_neg h2]
                  split at hb
                  · rename_i h2
                    rw [if_pos h2]
                    have hb := keysOk_some hb
                    refine tells_parseMultisink W name e ?_
                    cases h4 : itemsAt W e with
                    | none => rfl
                    | some x =>
                      rw [h4] at hb
                      simp only at hb
                      cases h5 : x.mapM (asText W) with
                      | none => rw [h5] at hb; cases hb
                      | some y => rw [h5] at hb; cases hb
                  · rename_i h2
                    rw [if_neg h2]
                    exact Tells.error _
        | _ => exact Tells.head (Tells.errorThen _ _) fun type => hkt (some name) type fun t h => by cases h; exact hp
    | _ => exact hbad _

theorem tells_parseSinkList (W : World) {n : Nat} {e : List (Nat × Nat)} (hn : W.node n = .map e)
    (hname : (prop W e "name".toList).isSome) (h : readSink W e = some none) (items : List Nat) (hi : n ∈ items) (i : Nat) :
    Tells (parseSinkList W i items) fun _ => True := by
  induction items generalizing i with
  | nil => cases hi
  | cons m ms ih =>
    unfold parseSinkList
    rcases List.mem_cons.1 hi with rfl | hi
    · refine Tells.head ?_ fun _ => tri_parseSinkList W _ _
      unfold parseSinkItem
      rw [hn]
      exact tells_parseSink W i e hname h
    · refine Tells.tail (Q := Any) ?_ fun _ => ih hi _
      unfold parseSinkItem
      split
      · exact tri_parseSink W _ _
      · exact Sinks.sinkNotMap W _

/-- a group node that is not usable sets the error flag -/
theorem tells_readGroup (W : World) (i : Nat) (e : List (Nat × Nat)) (parent : Option Text) :
    Tells (readGroup W i e parent) (· = none) := by
  unfold readGroup
  simp only
  refine Tells.bind (Q := (· = none)) ?_ fun name => Tells.bind (Q := (· = none)) ?_ fun fb =>
    Tells.bind (Q := fun sk => sk.2 = false) ?_ fun sink => Tells.bind (Q := (· = false)) ?_ fun levelOk =>
    Tells.tail (tri_parseLevel W e _) fun level => Tells.bind (Q := (· = none)) ?_ fun children =>
    Tells.tail (tri_checkKeys W e _ _ (fun _ => rfl) fun _ => rfl) fun _ => Tells.tail (Q := Any) ?_ fun _ => ?_
  · split
    · exact Tells.bind (Q := fun _ => True) (Tells.groupNoName _) fun _ => Tells.pure fun h => h.2 trivial
    · exact Tells.pure fun h => by cases h
    · exact Tells.errorThen _ _
  · split
    · exact Tells.pure fun h => by cases h
    · split
      · exact Tells.throw
      · exact Tells.pure fun h => by cases h
    · exact Tells.errorThen _ _
  · split
    · exact Tells.pure fun h => by cases h
    · refine Tells.tail (Tri.lookSink _) fun o => ?_
      split
      · exact Tells.pure fun h => by cases h
      · exact Tells.errorThen _ _
    · exact Tells.errorThen _ _
  · split
    · exact Tells.errorThen _ _
    · exact Tells.pure fun h => by cases h
  · split
    · exact Tells.pure fun h => by cases h
    · exact Tells.pure fun h => by cases h
    · exact Tells.pure fun h => by cases h
    · exact Tells.errorThen _ _
  · split
    · refine Tri.bind (Tri.lookSink _) fun o _ => ?_
      split
      · exact Tri.pure trivial
      · exact Reads.error _ rfl rfl
    · exact Tri.pure trivial
  · split
    · exact Tells.pure fun h => absurd h.1.1.1.1.1 (by simp)
    · rename_i n f l c _ _ _ _ _ hno
      refine Tells.tail (Q := Any) (Reads.warning _ rfl rfl) fun _ => Tells.pure ?_
      rintro ⟨⟨⟨⟨⟨_, h1⟩, h2⟩, h3⟩, h4⟩, h5⟩
      cases hname : n with
      | none => exact h1 hname
      | some name =>
        cases hfb : f with
        | none => exact h2 hfb
        | some fb =>
          cases hch : c with
          | none => exact h5 hch
          | some ch =>
            cases hl : l with
            | false => exact h4 hl
            | true =>
              cases hs : sink.2 with
              | false => exact h3 hs
              | true => exact hno name fb ch hname hfb hs hl hch

theorem tells_parseGroupList (W : World) (F f : Nat) (parent : Option Text) (hp : parent ≠ some star) {n : Nat} (items : List Nat)
    (hi : n ∈ items) (i : Nat) {s s' : St} (h : ∀ e g, W.node n = .map e → ¬ UsableGroup W s.sys.sinks parent e g)
    (he : parseGroupList W (parseGroup W F f parent) i items s = .ok () s') : s'.hasError = true := by
  induction items generalizing i s with
  | nil => cases hi
  | cons m ms ih =>
    unfold parseGroupList at he
    rw [bind_def] at he
    have htri : ∀ {P : St → St → Prop} [Groups W F P], Tri P Any (parseGroupItem W (parseGroup W F f parent) i m) := by
      intro P _
      have : Reads P := (inferInstance : Groups W F P).toReads
      unfold parseGroupItem
      split
      · exact tri_parseGroup W F f i _ parent hp
      · exact Reads.error _ rfl rfl
    have h1 := htri (P := SameSinks) s
    cases hm : parseGroupItem W (parseGroup W F f parent) i m s with
    | throw s1 => rw [hm] at he; cases he
    | ub => rw [hm] at he; cases he
    | diverge => rw [hm] at he; cases he
    | ok u s1 =>
      rw [hm] at he h1
      simp only at he
      have hss : s1.sys.sinks = s.sys.sinks := h1.1
      rcases List.mem_cons.1 hi with rfl | hi
      · have h2 := tri_parseGroupList (P := Emits) W (fun i e => tri_parseGroup W F f i e parent hp) (i + 1) ms s1
        rw [he] at h2
        obtain ⟨_, _, h3, _⟩ := h2.1
        rw [h3]
        suffices h4 : s1.hasError = true by rw [h4]; rfl
        unfold parseGroupItem at hm
        cases hn : W.node n with
        | map e =>
          rw [hn] at hm
          simp only at hm
          cases f with
          | zero => simp only [parseGroup] at hm; cases hm
          | succ f =>
            rw [parseGroup_succ, bind_def] at hm
            obtain ⟨s2, h5, e2⟩ := read_readGroup W i e parent s
            have htell := tells_readGroup W i e parent s
            rw [e2] at hm htell
            simp only at hm htell
            cases hg : groupAt W e parent s.sys.sinks with
            | none => rw [hg] at hm; cases hm
            | some o =>
              rw [hg] at hm htell
              simp only [give] at hm htell
              cases o with
              | none =>
                simp only [afterRead] at hm
                cases hm
                exact (htell none _ rfl).2 rfl
              | some g =>
                by_cases hs : g.name = star
                · simp only [afterRead, if_pos hs] at hm
                  cases hm
                  rfl
                · exact absurd (groupAt_usable hg hs) (h e g hn)
        | _ => rw [hn] at hm; cases hm; rfl
      · exact ih hi (i + 1) (by rw [hss]; exact h) he

end Yaml
end Soralog
