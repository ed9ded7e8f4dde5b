import Verif.Proofs.YamlEnds
/-!
# The reading functions agree with the specification of documents (`Spec/Document.lean`)
-/
namespace Soralog
namespace Yaml

open Soralog.System

theorem levelOf_lookup (t : Text) : levelOf t = levelNames.lookup t := by
  unfold levelOf levelNames
  simp only [List.lookup_cons, List.lookup_nil]
  have hb : ∀ u : Text, (t == u) = decide (t = u) := fun u => by
    by_cases h : t = u
    · subst h; simp
    · simp [h]
  simp only [hb]
  by_cases h1 : t = "off".toList
  · simp [h1]
  by_cases h2 : t = "critical".toList
  · simp [h2]
  by_cases h3 : t = "crit".toList
  · simp [h3]
  by_cases h4 : t = "error".toList
  · simp [h4]
  by_cases h5 : t = "warning".toList
  · simp [h5]
  by_cases h6 : t = "warn".toList
  · simp [h6]
  by_cases h7 : t = "info".toList
  · simp [h7]
  by_cases h8 : t = "verbose".toList
  · simp [h8]
  by_cases h9 : t = "debug".toList
  · simp [h9]
  by_cases h10 : t = "deb".toList
  · simp [h10]
  by_cases h11 : t = "trace".toList
  · simp [h11]
  simp only [h1, h2, h3, h4, h5, h6, h7, h8, h9, h10, h11, or_self, if_false, decide_false]

theorem levelAt_named (W : World) (e : List (Nat × Nat)) : levelAt W e = namedLevel W e := by
  unfold levelAt namedLevel
  congr 1
  funext t
  exact levelOf_lookup t

theorem threadAt_of (W : World) (e : List (Nat × Nat)) : threadAt W e = threadOf W e := by
  unfold threadAt threadOf
  cases textAt W e "thread".toList with
  | none => rfl
  | some t => simp only [Option.some.injEq]

theorem toSize_nonneg {i : Int} (h1 : 0 ≤ i) (h2 : i < 2 ^ 31) : toSize i = i.toNat := by
  unfold toSize
  rw [Int.emod_eq_of_lt h1 (by omega)]

theorem toSize_neg {i : Int} (h1 : i < 0) (h2 : -2 ^ 31 ≤ i) : 2 ^ 63 ≤ toSize i := by
  unfold toSize
  have h : i % 2 ^ 64 = i + 2 ^ 64 := by
    rw [← Int.add_emod_right]
    exact Int.emod_eq_of_lt (by omega) (by omega)
  rw [h]
  omega

/-- the number read is the one of the specification, if it is read with a test that accepts what the specification accepts -/
theorem readNumber_or {W : World} {key : Text} {accept ok : Int → Text → Bool} {e : List (Nat × Nat)} {o : Option Nat} {d : Nat}
    (h : readNumber W key accept e = some o)
    (ha : ∀ i t, textAt W e key = some t → W.asInt t = some i → accept i t = ok i t ∧ (ok i t = true → 0 ≤ i)) :
    o.getD d = numberOr W e key ok d := by
  unfold readNumber at h
  unfold numberOr
  cases ht : textAt W e key with
  | none => rw [ht] at h; cases h; rfl
  | some t =>
    rw [ht] at h
    simp only [Option.bind_some] at h ⊢
    cases hi : W.asInt t with
    | none => rw [hi] at h; cases h
    | some i =>
      rw [hi] at h
      simp only [Option.map_some, Option.some.injEq] at h ⊢
      obtain ⟨h1, h2⟩ := ha i t ht hi
      rw [h1] at h
      cases hok : ok i t with
      | true =>
        rw [hok] at h
        subst h
        simp only [if_true, Option.getD_some]
        exact toSize_nonneg (h2 hok) (W.asInt_range t i hi).2
      | false =>
        rw [hok] at h
        subst h
        rfl

theorem readArgs_some {W : World} {console : Bool} {e : List (Nat × Nat)} {a : Args} (h : readArgs W console e = some a) :
    readNumber W "capacity".toList acceptCapacity e = some a.capacity ∧ readNumber W "buffer".toList acceptBuffer e = some a.buffer ∧
    readNumber W "max_message_length".toList (acceptLength console) e = some a.maxLen ∧
    readNumber W "latency".toList acceptLatency e = some a.latency ∧ a.ti = threadAt W e := by
  unfold readArgs at h
  cases h1 : readNumber W "capacity".toList acceptCapacity e with
  | none => rw [h1] at h; cases h
  | some c =>
    cases h2 : readNumber W "buffer".toList acceptBuffer e with
    | none => rw [h1, h2] at h; cases h
    | some b =>
      cases h3 : readNumber W "max_message_length".toList (acceptLength console) e with
      | none => rw [h1, h2, h3] at h; cases h
      | some m =>
        cases h4 : readNumber W "latency".toList acceptLatency e with
        | none => rw [h1, h2, h3, h4] at h; cases h
        | some l => rw [h1, h2, h3, h4] at h; cases h; exact ⟨rfl, rfl, rfl, rfl, rfl⟩

/-- the defaults of a sink -/
def defaultsOf (console : Bool) : Defaults := if console then consoleDefaults else fileDefaults

theorem grow_max (a b : Nat) : (if a < b then b else a) = max a b := by
  split
  · rename_i hlt; rw [Nat.max_eq_right (Nat.le_of_lt hlt)]
  · rename_i hlt; rw [Nat.max_eq_left (Nat.not_lt.1 hlt)]

/-- no negative size of the buffer is written -/
def BufferOk (W : World) (e : List (Nat × Nat)) : Prop :=
  ∀ t i, textAt W e "buffer".toList = some t → W.asInt t = some i → 0 ≤ i

/-- the parameters of a sink that has been created are those of the specification -/
theorem mkCfg_queueOf {W : World} {console : Bool} {kind : Sink.Kind} {e : List (Nat × Nat)} {a : Args}
    (h : readArgs W console e = some a)
    (halloc : W.alloc (mkCfg kind ((levelAt W e).getD .trace) (defaultsOf console) a) = true ∨ BufferOk W e) :
    mkCfg kind ((levelAt W e).getD .trace) (defaultsOf console) a = queueOf W e console kind := by
  obtain ⟨h1, h2, h3, h4, h5⟩ := readArgs_some h
  have e1 : a.capacity.getD (defaultsOf console).capacity =
      numberOr W e "capacity".toList (fun i _ => decide (4 ≤ i)) (defaultsOf console).capacity :=
    readNumber_or h1 fun i t _ _ => ⟨rfl, fun h => by have := of_decide_eq_true h; omega⟩
  have e3 : a.maxLen.getD (defaultsOf console).maxLen = numberOr W e "max_message_length".toList
      (fun i _ => if console then decide (64 < i) else decide (64 ≤ i)) (defaultsOf console).maxLen :=
    readNumber_or h3 fun i t _ _ => by
      cases console with
      | true => exact ⟨rfl, fun h => by have := of_decide_eq_true h; omega⟩
      | false => exact ⟨rfl, fun h => by have := of_decide_eq_true h; omega⟩
  have e4 : a.latency.getD (defaultsOf console).latency =
      numberOr W e "latency".toList (fun i t => decide (intText i = t ∧ 0 ≤ i)) (defaultsOf console).latency :=
    readNumber_or h4 fun i t _ _ => ⟨rfl, fun h => (of_decide_eq_true h).2⟩
  have e2 : a.buffer.getD (defaultsOf console).buffer =
      numberOr W e "buffer".toList (fun i _ => decide (416 ≤ i)) (defaultsOf console).buffer := by
    refine readNumber_or h2 fun i t ht hi => ?_
    have hr := W.asInt_range t i hi
    by_cases hneg : i < 0
    · -- a negative number is accepted, but no memory is found for it
      exfalso
      have hbig := toSize_neg hneg hr.1
      rcases halloc with halloc | hok
      case inr => exact absurd (hok t i ht hi) (by omega)
      have hmax := W.alloc_max _ halloc
      have hacc : acceptBuffer i t = true := decide_eq_true (by
        show 104 * 4 ≤ toSize i
        omega)
      have hb : a.buffer = some (toSize i) := by
        unfold readNumber at h2
        rw [ht] at h2
        simp only [hi, Option.map_some, hacc, if_true, Option.some.injEq] at h2
        exact h2.symm
      simp only [mkCfg, hb, Option.getD_some] at hmax
      split at hmax <;> omega
    · have hs : toSize i = i.toNat := toSize_nonneg (by omega) hr.2
      refine ⟨?_, fun h => by have := of_decide_eq_true h; omega⟩
      unfold acceptBuffer
      rw [hs]
      exact decide_eq_decide.2 (show 104 * 4 ≤ i.toNat ↔ 416 ≤ i by omega)
  have d1 : (defaultsOf console).capacity = if console then 64 else 2048 := by cases console <;> rfl
  have d2 : (defaultsOf console).buffer = if console then 2 ^ 17 else 2 ^ 22 := by cases console <;> rfl
  have d3 : (defaultsOf console).maxLen = 1024 := by cases console <;> rfl
  have d4 : (defaultsOf console).latency = if console then 200 else 1000 := by cases console <;> rfl
  rw [d1] at e1; rw [d2] at e2; rw [d3] at e3; rw [d4] at e4
  simp only [mkCfg, queueOf, d1, d2, d3, d4, e1, e2, e3, e4, h5, threadAt_of, levelAt_named]
  congr 1
  rw [Nat.mul_comm 2]
  exact grow_max _ _

theorem readColor_some {W : World} {e : List (Nat × Nat)} {b : Bool} (h : readColor W e = some b) :
    b = ((textAt W e "color".toList).bind W.asBool == some true) := by
  unfold readColor at h
  cases ht : textAt W e "color".toList with
  | none => rw [ht] at h; cases h; rfl
  | some t =>
    rw [ht] at h
    simp only at h
    simp only [Option.bind_some, h]
    cases b <;> rfl

theorem keysOk_some {W : World} {e : List (Nat × Nat)} {α : Type} {o : Option α} {a : α} (h : ((keysOk W e).bind fun _ => o) = some a) :
    o = some a := by
  cases hk : keysOk W e with
  | none => rw [hk] at h; cases h
  | some u => rw [hk] at h; exact h

theorem streamAt_of (W : World) (e : List (Nat × Nat)) :
    streamAt W e = decide (textAt W e "stream".toList = some "stderr".toList) := by
  unfold streamAt
  by_cases h : textAt W e "stream".toList = some "stderr".toList
  · rw [h]; rfl
  · simp only [h, decide_false]
    cases hb : textAt W e "stream".toList == some "stderr".toList with
    | false => rfl
    | true => exact absurd (eq_of_beq hb) h

/-- the sinks with a queue that are declared by `d` -/
def Decl.cfg : Decl → Option Sink.Cfg
  | .console _ c => some c
  | .file _ c => some c
  | .syslog _ c => some c
  | .multi _ _ => none

theorem resolve_cfg (d : Decl) (t : Table) : (d.resolve t).cfg = d.cfg := by cases d <;> rfl

theorem readSink_declares {W : World} {e : List (Nat × Nat)} {n : Text} {d : Decl} (h : readSink W e = some (some (n, d)))
    (ha : (∀ c, d.cfg = some c → W.alloc c = true) ∨ BufferOk W e) : Declares W e (n, d) := by
  unfold readSink at h
  cases hn : textAt W e "name".toList with
  | none => rw [hn] at h; cases h
  | some name =>
    cases ht : textAt W e "type".toList with
    | none => rw [hn, ht] at h; cases h
    | some type =>
      rw [hn, ht] at h
      simp only at h
      split at h
      · cases h
      · rename_i hs
        cases hb : readBody W type e with
        | none => rw [hb] at h; cases h
        | some o =>
          rw [hb] at h
          simp only [Option.map_some, Option.some.injEq] at h
          cases o with
          | none => cases h
          | some d' =>
            simp only [Option.map_some, Option.some.injEq, Prod.mk.injEq] at h
            obtain ⟨rfl, rfl⟩ := h
            unfold readBody at hb
            split at hb
            · rename_i htype
              subst htype
              cases hc : readColor W e with
              | none => rw [hc] at hb; cases hb
              | some color =>
                cases hr : readArgs W true e with
                | none => rw [hc, hr] at hb; cases hb
                | some args =>
                  rw [hc, hr] at hb
                  have hb := keysOk_some hb
                  cases hb
                  have hcfg := mkCfg_queueOf (kind := .console color W.boldFirst) hr (ha.imp (· _ rfl) id)
                  simp only [defaultsOf, if_true] at hcfg
                  rw [hcfg, streamAt_of, readColor_some hc]
                  exact .console hn hs ht
            · split at hb
              · rename_i _ htype
                subst htype
                cases hr : readArgs W false e with
                | none => rw [hr] at hb; cases hb
                | some args =>
                  rw [hr] at hb
                  have hb := keysOk_some hb
                  cases hp : textAt W e "path".toList with
                  | none => rw [hp] at hb; cases hb
                  | some path =>
                    rw [hp] at hb
                    cases hb
                    have hcfg := mkCfg_queueOf (kind := .file) hr (ha.imp (· _ rfl) id)
                    simp only [defaultsOf, Bool.false_eq_true, if_false] at hcfg
                    rw [hcfg]
                    exact .file hn hs ht hp
              · split at hb
                · rename_i _ _ htype
                  subst htype
                  cases hr : readArgs W false e with
                  | none => rw [hr] at hb; cases hb
                  | some args =>
                    rw [hr] at hb
                    have hb := keysOk_some hb
                    cases hp : textAt W e "ident".toList with
                    | none => rw [hp] at hb; cases hb
                    | some path =>
                      rw [hp] at hb
                      cases hb
                      have hcfg := mkCfg_queueOf (kind := .syslog) hr (ha.imp (· _ rfl) id)
                      simp only [defaultsOf, Bool.false_eq_true, if_false] at hcfg
                      rw [hcfg]
                      exact .syslog hn hs ht hp
                · split at hb
                  · rename_i _ _ _ htype
                    subst htype
                    have hb := keysOk_some hb
                    unfold itemsAt at hb
                    cases hp : prop W e "sinks".toList with
                    | none => rw [hp] at hb; cases hb
                    | some nd =>
                      rw [hp] at hb
                      cases nd with
                      | seq items =>
                        simp only at hb
                        cases hm : items.mapM (asText W) with
                        | none => rw [hm] at hb; cases hb
                        | some names =>
                          rw [hm] at hb
                          cases hb
                          rw [levelAt_named]
                          exact .multi hn hs ht hp hm
                      | _ => cases hb
                  · cases hb

theorem readSink_none {W : World} {e : List (Nat × Nat)} (h : readSink W e = some none) (d : Text × Decl) : ¬ Declares W e d := by
  intro hd
  unfold readSink at h
  have hmk : ∀ {α β : Type} {o : Option α} {f : α → Option (Option β)}, (o.bind f = some none) → ∃ a, o = some a ∧ f a = some none := by
    intro α β o f h
    cases o with
    | none => cases h
    | some a => exact ⟨a, rfl, h⟩
  have key : ∀ {n type : Text}, textAt W e "name".toList = some n → n ≠ star → textAt W e "type".toList = some type →
      readBody W type e = some none := by
    intro n type hn hs ht
    rw [hn, ht] at h
    simp only [if_neg hs] at h
    cases hb : readBody W type e with
    | none => rw [hb] at h; cases h
    | some o =>
      cases o with
      | none => rfl
      | some d => rw [hb] at h; cases h
  cases hd with
  | console hn hs ht =>
    have hb := key hn hs ht
    unfold readBody at hb
    rw [if_pos rfl] at hb
    obtain ⟨_, _, hb⟩ := hmk hb
    obtain ⟨_, _, hb⟩ := hmk hb
    obtain ⟨_, _, hb⟩ := hmk hb
    cases hb
  | file hn hs ht hp =>
    have hb := key hn hs ht
    unfold readBody at hb
    rw [if_neg (by decide), if_pos rfl] at hb
    obtain ⟨_, _, hb⟩ := hmk hb
    obtain ⟨_, _, hb⟩ := hmk hb
    rw [hp] at hb
    cases hb
  | syslog hn hs ht hp =>
    have hb := key hn hs ht
    unfold readBody at hb
    rw [if_neg (by decide), if_neg (by decide), if_pos rfl] at hb
    obtain ⟨_, _, hb⟩ := hmk hb
    obtain ⟨_, _, hb⟩ := hmk hb
    rw [hp] at hb
    cases hb
  | multi hn hs ht hi hm =>
    have hb := key hn hs ht
    unfold readBody at hb
    rw [if_neg (by decide), if_neg (by decide), if_neg (by decide), if_pos rfl] at hb
    have hb := keysOk_some hb
    unfold itemsAt at hb
    rw [hi] at hb
    simp only [hm] at hb
    cases hb

/-- the sinks read are those declared, if no exception is thrown -/
theorem listed_of_ok {W : World} {items : List Nat} {i : Nat} {s s' : St} (h : parseSinkList W i items s = .ok () s') :
    Listed W items (declared W items) := by
  induction items generalizing i s with
  | nil => exact .nil
  | cons n ns ih =>
    unfold parseSinkList at h
    obtain ⟨s1, h1, e1⟩ := creates_item W i n s
    rw [bind_def, e1] at h
    unfold declared
    cases hr : readItem W n with
    | none => rw [hr] at h; cases h
    | some o =>
      rw [hr] at h
      cases o with
      | none =>
        rw [List.filterMap_cons_none (by rw [hr]; rfl)]
        refine .skip (fun d hd => ?_) (ih h)
        obtain ⟨e, he, hd⟩ := hd
        unfold readItem at hr
        rw [he] at hr
        exact readSink_none hr d hd
      | some nd =>
        obtain ⟨nm, d⟩ := nd
        rw [List.filterMap_cons_some (by rw [hr]; rfl)]
        simp only at h
        rcases createSink_cases W nm (d.resolve s.sys.sinks) s1 with hc | ⟨ha, b, hc⟩
        · rw [hc] at h; cases h
        · rw [hc] at h
          refine .use ?_ (ih h)
          unfold readItem at hr
          cases hn : W.node n with
          | map e =>
            rw [hn] at hr
            exact ⟨e, hn, readSink_declares hr (.inl fun c hc => ha c (by rw [resolve_cfg]; exact hc))⟩
          | _ => rw [hn] at hr; cases hr

/-! ### groups -/

theorem usable_some {name : Option Text} {fb : Option Bool} {sink : Option Text × Bool} {lo : Bool} {l : Option Level}
    {ch : Option (Option (List Nat))} {g : GroupNode} :
    usable name fb sink lo l ch = some g ↔ name = some g.name ∧ fb = some g.isFallback ∧ sink = (g.sink, true) ∧ lo = true ∧
      l = g.level ∧ ch = some g.children := by
  obtain ⟨sk, so⟩ := sink
  unfold usable
  constructor
  · intro h
    split at h
    · rename_i h1 h2 h3 h4 h5
      cases h
      exact ⟨rfl, rfl, Prod.ext rfl (by assumption), rfl, rfl, rfl⟩
    · cases h
  · rintro ⟨rfl, rfl, h, rfl, rfl, rfl⟩
    cases h
    rfl

theorem groupAt_usable {W : World} {e : List (Nat × Nat)} {parent : Option Text} {t : Table} {g : GroupNode}
    (h : groupAt W e parent t = some (some g)) (hs : g.name ≠ star) : UsableGroup W t parent e g := by
  unfold groupAt at h
  cases h1 : readFallback W e with
  | none => rw [h1] at h; cases h
  | some fb =>
    rw [h1] at h
    have h := keysOk_some h
    simp only [Option.some.injEq] at h
    obtain ⟨a1, a2, a3, a4, a5, a6⟩ := usable_some.1 h
    subst a2
    refine ⟨a1, hs, ?_, ?_, ?_, ?_, ?_⟩
    · unfold readFallback at h1
      cases hp : prop W e "is_fallback".toList with
      | none => rw [hp] at h1; exact (Option.some.inj (Option.some.inj h1)).symm
      | some n =>
        rw [hp] at h1
        cases n with
        | scalar x =>
          simp only at h1 ⊢
          cases hb : W.asBool x with
          | none => rw [hb] at h1; cases h1
          | some b => rw [hb] at h1; cases h1; rfl
        | _ => cases h1
    · unfold readGroupSink at a3
      cases hp : prop W e "sink".toList with
      | none => rw [hp] at a3; exact (Prod.mk.inj a3).1.symm
      | some n =>
        rw [hp] at a3
        cases n with
        | scalar x => exact ⟨(Prod.mk.inj a3).1.symm, (Prod.mk.inj a3).2⟩
        | _ => exact absurd (Prod.mk.inj a3).2 (by decide)
    · rw [← a5, levelAt_named]
    · intro hpar
      subst hpar
      simpa using a4
    · unfold readChildren at a6
      cases hp : prop W e "children".toList with
      | none => rw [hp] at a6; exact (Option.some.inj a6).symm
      | some n =>
        rw [hp] at a6
        cases n with
        | scalar x => cases a6
        | map x => cases a6
        | null => exact (Option.some.inj a6).symm
        | seq x => exact (Option.some.inj a6).symm

theorem groupAt_useless {W : World} {e : List (Nat × Nat)} {parent : Option Text} {t : Table} {o : Option GroupNode}
    (h : groupAt W e parent t = some o) {g : GroupNode} (hg : UsableGroup W t parent e g) : o = some g := by
  unfold groupAt at h
  cases h1 : readFallback W e with
  | none => rw [h1] at h; cases h
  | some fb =>
    rw [h1] at h
    have h := keysOk_some h
    simp only [Option.some.injEq] at h
    rw [← h]
    refine usable_some.2 ⟨hg.name, ?_, ?_, ?_, ?_, ?_⟩
    · have h2 := hg.fallback
      unfold readFallback at h1
      cases hp : prop W e "is_fallback".toList with
      | none => rw [hp] at h1 h2; cases h1; simp only at h2; rw [h2]
      | some n =>
        rw [hp] at h1 h2
        cases n with
        | scalar x => simp only at h2 h1; rw [h2] at h1; exact (Option.some.inj h1).symm
        | null => exact h2.elim
        | map x => exact h2.elim
        | seq x => exact h2.elim
    · have h2 := hg.sink
      unfold readGroupSink
      cases hp : prop W e "sink".toList with
      | none => rw [hp] at h2; simp only at h2 ⊢; rw [h2]; rfl
      | some n =>
        rw [hp] at h2
        cases n with
        | scalar x => simp only at h2 ⊢; rw [h2.1, h2.2]
        | null => exact h2.elim
        | map x => exact h2.elim
        | seq x => exact h2.elim
    · cases parent with
      | none => rw [hg.levelGiven rfl]; rfl
      | some p => simp
    · rw [levelAt_named, hg.level]
    · have h2 := hg.children
      unfold readChildren
      cases hp : prop W e "children".toList with
      | none => rw [hp] at h2; simp only at h2 ⊢; rw [h2]
      | some n =>
        rw [hp] at h2
        cases n with
        | scalar x => exact h2.elim
        | map x => exact h2.elim
        | null => simp only at h2 ⊢; rw [h2]
        | seq x => simp only at h2 ⊢; rw [h2]

/-- The groups declared are those of the specification, if the processing ends without an exception. -/
theorem nests_of_ok (W : World) (F f : Nat) : ∀ (parent : Option Text) (items : List Nat) (i : Nat) (s s' : St),
    parent ≠ some star → parseGroupList W (parseGroup W F f parent) i items s = .ok () s' →
    Nests W s.sys.sinks parent items (declaredGroups W s.sys.sinks f parent items) := by
  induction f with
  | zero =>
    intro parent items
    induction items with
    | nil => intro i s s' _ _; exact .nil
    | cons n ns ih =>
      intro i s s' hp h
      unfold parseGroupList at h
      rw [bind_def] at h
      unfold parseGroupItem at h
      cases hn : W.node n with
      | map e => rw [hn] at h; simp only [parseGroup] at h; cases h
      | _ =>
        rw [hn] at h
        exact .skip (fun e g he => by rw [hn] at he; cases he) (ih (i + 1)
          { s with errors := s.errors ++ [.groupNotMap i], hasError := true } s' hp h)
  | succ f ihf =>
    intro parent items
    induction items with
    | nil => intro i s s' _ _; exact .nil
    | cons n ns ih =>
      intro i s s' hp h
      unfold parseGroupList at h
      rw [bind_def] at h
      unfold parseGroupItem at h
      unfold declaredGroups
      rw [List.flatMap_cons]
      cases hn : W.node n with
      | map e =>
        rw [hn] at h
        simp only at h ⊢
        have htri := tri_parseGroup (P := SameSinks) W F (f + 1) i e parent hp s
        cases hg1 : parseGroup W F (f + 1) parent i e s with
        | throw s1 => rw [hg1] at h; cases h
        | ub => rw [hg1] at h; cases h
        | diverge => rw [hg1] at h; cases h
        | ok u s1 =>
          rw [hg1] at h htri
          simp only at h
          have hss : s1.sys.sinks = s.sys.sinks := htri.1
          have hrest := ih (i + 1) s1 s' hp h
          rw [hss] at hrest
          have hrest' : Nests W s.sys.sinks parent ns (ns.flatMap fun n => match W.node n with
              | .map e =>
                match groupAt W e parent s.sys.sinks with
                | some (some g) =>
                  if g.name = star then []
                  else (parent, g) :: (match g.children with
                    | some cs => declaredGroups W s.sys.sinks f (some g.name) cs
                    | none => [])
                | _ => []
              | _ => []) := hrest
          rw [parseGroup_succ] at hg1
          obtain ⟨s2, h2, e2⟩ := read_readGroup W i e parent s
          rw [bind_def, e2] at hg1
          simp only at hg1
          cases hga : groupAt W e parent s.sys.sinks with
          | none => rw [hga] at hg1; cases hg1
          | some o =>
            rw [hga] at hg1
            simp only [give] at hg1
            cases o with
            | none =>
              refine .skip (fun e' g he hu => ?_) hrest'
              rw [hn] at he; cases he
              exact absurd (groupAt_useless hga hu) (by simp)
            | some g =>
              simp only [afterRead] at hg1
              by_cases hstar : g.name = star
              · simp only [if_pos hstar]
                refine .skip (fun e' g' he hu => ?_) hrest'
                rw [hn] at he; cases he
                have := Option.some.inj (groupAt_useless hga hu)
                subst this
                exact hu.notStar hstar
              · simp only [if_neg hstar] at hg1 ⊢
                have hu := groupAt_usable hga hstar
                rw [List.cons_append]
                refine .use hn hu ?_ hrest'
                rw [bind_def] at hg1
                have htri2 := tri_applyGroup (P := SameSinks) (W := W) (F := F) (g := g) (entries := e) (parent := parent)
                  (fun _ _ _ _ ho h => (step_sinks ho.1 ho.2 h).2.1) hstar
                  ((tri_readGroup (P := SameSinks) W (fun _ => (Groups.noName (W := W) (F := F) _)) i e parent s |> fun h3 => by
                      rw [e2] at h3
                      simp only [hga, give] at h3
                      exact h3.2 g rfl)) hp s2
                cases ha : applyGroup F g parent s2 with
                | throw s3 => rw [ha] at hg1; cases hg1
                | ub => rw [ha] at hg1; cases hg1
                | diverge => rw [ha] at hg1; cases hg1
                | ok u2 s3 =>
                  rw [ha] at hg1 htri2
                  simp only at hg1
                  have hs3 : s3.sys.sinks = s.sys.sinks := by
                    have h4 : s3.sys.sinks = s2.sys.sinks := htri2.1
                    rw [h4, h2.1]
                  cases hc : g.children with
                  | none => exact .nil
                  | some cs =>
                    rw [hc] at hg1
                    have := ihf (some g.name) cs 0 s3 s1 (fun h => hstar (Option.some.inj h)) hg1
                    rw [hs3] at this
                    exact this
      | _ =>
        rw [hn] at h
        exact .skip (fun e g he => by rw [hn] at he; cases he) (ih (i + 1)
          { s with errors := s.errors ++ [.groupNotMap i], hasError := true } s' hp h)

end Yaml
end Soralog
