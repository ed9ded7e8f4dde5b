import Verif.Proofs.YamlEnds
import Verif.Proofs.YamlCalls
import Verif.Proofs.YamlDoc
import Verif.Spec.Readable
/-!
# A document whose values can be read is processed to its end
-/
namespace Soralog
namespace Yaml

open Soralog.System

/-- no exception -/
def Calm {α : Type} (m : M α) (s : St) (Q : α → St → Prop) : Prop :=
  match m s with
  | .ok a s' => Q a s'
  | .throw _ => False
  | .ub => True
  | .diverge => True

theorem Calm.bind {α β : Type} {m : M α} {k : α → M β} {s : St} {Q : α → St → Prop} {R : β → St → Prop} (hm : Calm m s Q)
    (hk : ∀ a s', Q a s' → Calm (k a) s' R) : Calm (m >>= k) s R := by
  unfold Calm at *
  rw [bind_def]
  cases he : m s with
  | ok a s' => rw [he] at hm; exact hk a s' hm
  | throw s' => rw [he] at hm; exact hm.elim
  | ub => trivial
  | diverge => trivial

theorem Calm.mono {α : Type} {m : M α} {s : St} {Q R : α → St → Prop} (hm : Calm m s Q) (h : ∀ a s', Q a s' → R a s') : Calm m s R := by
  unfold Calm at *
  cases he : m s with
  | ok a s' => rw [he] at hm; exact h a s' hm
  | throw s' => rw [he] at hm; exact hm.elim
  | ub => trivial
  | diverge => trivial

theorem Calm.pure {α : Type} {a : α} {s : St} {Q : α → St → Prop} (h : Q a s) : Calm (Pure.pure a : M α) s Q := h

theorem Calm.reading {α : Type} {m : M α} {r : Sys → Option α} (h : Reading m r) {s : St} {a : α} (hr : r s.sys = some a) :
    Calm m s fun b s' => b = a ∧ Quiet s s' := by
  obtain ⟨s', h1, h2⟩ := h s
  unfold Calm
  rw [h2, hr]
  exact ⟨rfl, h1⟩

theorem listOf_eq (W : World) (e : List (Nat × Nat)) (key : Text) : listOf W e key = listAt W e key := by
  unfold listOf listAt
  split <;> simp_all

theorem queue_eq (d : Decl) : d.queue = d.cfg := by cases d <;> rfl

theorem keysOk_of {W : World} {e : List (Nat × Nat)} (h : KeysRead W e) : keysOk W e = some () := by
  unfold keysOk
  rw [if_pos]
  exact List.all_eq_true.2 h

theorem readNumber_of {W : World} {e : List (Nat × Nat)} {key : Text} {accept : Int → Text → Bool}
    (h : ∀ t, textAt W e key = some t → (W.asInt t).isSome) : ∃ o, readNumber W key accept e = some o := by
  unfold readNumber
  cases ht : textAt W e key with
  | none => exact ⟨_, rfl⟩
  | some t =>
    have := h t ht
    cases hi : W.asInt t with
    | none => rw [hi] at this; cases this
    | some i => simp only [hi, Option.map_some]; exact ⟨_, rfl⟩

theorem readArgs_of {W : World} {e : List (Nat × Nat)} (h : SinkRead W e) (console : Bool) : ∃ a, readArgs W console e = some a := by
  obtain ⟨a, ha⟩ := readNumber_of (accept := acceptCapacity) (h.numbers "capacity".toList (by simp))
  obtain ⟨b, hb⟩ := readNumber_of (accept := acceptBuffer) (h.numbers "buffer".toList (by simp))
  obtain ⟨c, hc⟩ := readNumber_of (accept := acceptLength console) (h.numbers "max_message_length".toList (by simp))
  obtain ⟨d, hd⟩ := readNumber_of (accept := acceptLatency) (h.numbers "latency".toList (by simp))
  unfold readArgs
  rw [ha, hb, hc, hd]
  exact ⟨_, rfl⟩

theorem mapM_of {W : World} {items : List Nat} (h : ∀ n ∈ items, (asText W n).isSome) : ∃ l, items.mapM (asText W) = some l := by
  induction items with
  | nil => exact ⟨[], rfl⟩
  | cons n ns ih =>
    obtain ⟨l, hl⟩ := ih fun m hm => h m (List.mem_cons_of_mem _ hm)
    have h1 := h n List.mem_cons_self
    cases ht : asText W n with
    | none => rw [ht] at h1; cases h1
    | some t =>
      refine ⟨t :: l, ?_⟩
      rw [List.mapM_cons, ht, hl]
      rfl

theorem readSink_of {W : World} {e : List (Nat × Nat)} (h : SinkRead W e) : ∃ o, readSink W e = some o := by
  have hk := keysOk_of h.keys
  unfold readSink
  split
  · split
    · exact ⟨_, rfl⟩
    · rename_i name type _ _ _
      suffices hb : ∃ o, readBody W type e = some o by
        obtain ⟨o, ho⟩ := hb
        rw [ho]; exact ⟨_, rfl⟩
      obtain ⟨a1, h1⟩ := readArgs_of h true
      obtain ⟨a2, h2⟩ := readArgs_of h false
      unfold readBody
      rw [hk, h1, h2]
      split
      · have hc : ∃ b, readColor W e = some b := by
          unfold readColor
          cases ht : textAt W e "color".toList with
          | none => exact ⟨_, rfl⟩
          | some t => exact Option.isSome_iff_exists.1 (h.color t ht)
        obtain ⟨b, hb⟩ := hc
        rw [hb]
        exact ⟨_, rfl⟩
      · split
        · exact ⟨_, rfl⟩
        · split
          · exact ⟨_, rfl⟩
          · split
            · simp only [Option.bind_some]
              have hm := h.members
              unfold listOf at hm
              unfold itemsAt
              cases hp : prop W e "sinks".toList with
              | none => exact ⟨_, rfl⟩
              | some nd =>
                cases nd with
                | seq items =>
                  rw [hp] at hm
                  obtain ⟨l, hl⟩ := mapM_of hm
                  simp only [hl]
                  exact ⟨_, rfl⟩
                | _ => exact ⟨_, rfl⟩
            · exact ⟨_, rfl⟩
  · exact ⟨_, rfl⟩

/-- a sink for which there is memory is created, a syslog sink if there is none -/
theorem createSink_calm {W : World} {name : Text} {d : Decl} {t : Table} {s : St} (ha : ∀ c, d.cfg = some c → W.alloc c = true)
    (ho : d.isSyslog = true → s.syslogOpen = false) :
    Calm (createSink W name (d.resolve t)) s fun _ s' => s'.syslogOpen = (s.syslogOpen || d.isSyslog) ∧
      s'.sys.sinks = s.sys.sinks.put name s.sys.nsinks ∧ s'.sys.groups = s.sys.groups := by
  have h1 : allocate W (d.resolve t) s = .ok () s := by
    unfold allocate
    rw [resolve_cfg]
    cases hc : d.cfg with
    | none => rfl
    | some c => simp only [ha c hc, if_true]
  have h2 : openSyslog (d.resolve t) s = .ok () { s with syslogOpen := s.syslogOpen || d.isSyslog } := by
    cases d with
    | syslog i c =>
      have hh := ho rfl
      unfold openSyslog
      simp only [Decl.resolve, Decl.isSyslog, hh, Bool.false_eq_true, if_false, Bool.false_or]
    | _ => simp only [openSyslog, Decl.resolve, Decl.isSyslog, Bool.or_false]
  unfold Calm createSink
  rw [bind_def, h1]
  simp only
  rw [bind_def, h2]
  exact ⟨rfl, rfl, rfl⟩

/-- The sinks of a readable document are created. -/
theorem calm_sinkList {W : World} {items : List Nat} (h1 : ∀ n ∈ items, ∀ m, W.node n = .map m → SinkRead W m)
    (h2 : ∀ n ∈ items, ∀ d, NodeDeclares W n d → ∀ c, d.2.queue = some c → W.alloc c = true) (i : Nat) (s : St)
    (h3 : ∀ ds, Listed W items ds → (ds.filter fun d => d.2.isSyslog).length + (if s.syslogOpen then 1 else 0) ≤ 1)
    (h4 : (s.sys.sinks.find star).isSome) :
    Calm (parseSinkList W i items) s fun _ s' => (s'.sys.sinks.find star).isSome := by
  induction items generalizing i s with
  | nil => exact h4
  | cons n ns ih =>
    unfold parseSinkList
    obtain ⟨s1, q1, e1⟩ := creates_item W i n s
    have ih' := fun (s : St) (hs : ∀ ds, Listed W ns ds → (ds.filter fun d => d.2.isSyslog).length + (if s.syslogOpen then 1 else 0) ≤ 1)
        (h4 : (s.sys.sinks.find star).isSome) =>
      ih (fun m hm => h1 m (List.mem_cons_of_mem _ hm)) (fun m hm => h2 m (List.mem_cons_of_mem _ hm)) (i + 1) s hs h4
    have hread : ∃ o, readItem W n = some o := by
      unfold readItem
      cases hn : W.node n with
      | map e => exact readSink_of (h1 n List.mem_cons_self e hn)
      | _ => exact ⟨_, rfl⟩
    obtain ⟨o, ho⟩ := hread
    rw [ho] at e1
    cases o with
    | none =>
      have hno : ∀ d, ¬ NodeDeclares W n d := by
        rintro d ⟨e, he, hd⟩
        unfold readItem at ho
        rw [he] at ho
        exact readSink_none ho d hd
      refine Calm.bind (Q := fun _ s' => s' = s1) ?_ ?_
      · unfold Calm; rw [e1]
      · intro _ s' hs'
        subst hs'
        refine ih' _ (fun ds hds => ?_) (by rw [q1.1]; exact h4)
        rw [q1.2.2]
        exact h3 ds (.skip hno hds)
    | some nd =>
      obtain ⟨nm, d⟩ := nd
      have hdec : NodeDeclares W n (nm, d) := by
        unfold readItem at ho
        cases hn : W.node n with
        | map e =>
          rw [hn] at ho
          exact ⟨e, hn, readSink_declares ho (.inr (h1 n List.mem_cons_self e hn).size)⟩
        | _ => rw [hn] at ho; cases ho
      have hnm : nm ≠ star := by
        obtain ⟨e, _, hd⟩ := hdec
        cases hd <;> assumption
      simp only at e1
      rw [← q1.1] at e1
      have hcalm := createSink_calm (W := W) (name := nm) (d := d) (t := s1.sys.sinks) (s := s1)
        (fun c hc => h2 n List.mem_cons_self _ hdec c (by rw [queue_eq]; exact hc)) (fun hsys => by
          rw [q1.2.2]
          cases hop : s.syslogOpen with
          | false => rfl
          | true =>
            exfalso
            have hl : ∃ ds, Listed W ns ds := by
              clear ih ih' h1 h2 h3 e1 ho
              induction ns with
              | nil => exact ⟨[], .nil⟩
              | cons m ms ih =>
                obtain ⟨ds, hds⟩ := ih
                by_cases hm : ∃ d, NodeDeclares W m d
                · obtain ⟨d, hd⟩ := hm
                  exact ⟨_, .use hd hds⟩
                · exact ⟨_, .skip (fun d hd => hm ⟨d, hd⟩) hds⟩
            obtain ⟨ds, hds⟩ := hl
            have := h3 _ (.use hdec hds)
            rw [hop, List.filter_cons_of_pos (by exact hsys)] at this
            simp at this)
      refine Calm.bind (Q := fun _ s' => s'.syslogOpen = (s1.syslogOpen || d.isSyslog) ∧
        s'.sys.sinks = s1.sys.sinks.put nm s1.sys.nsinks) ?_ ?_
      · unfold Calm at hcalm ⊢
        rw [e1]
        revert hcalm
        cases createSink W nm (d.resolve s1.sys.sinks) s1 with
        | ok _ _ => exact fun h => ⟨h.1, h.2.1⟩
        | throw _ => exact id
        | _ => exact id
      · intro _ s' hs'
        refine ih' _ (fun ds hds => ?_) ?_
        · have := h3 _ (.use hdec hds)
          rw [hs'.1, q1.2.2]
          cases hsys : d.isSyslog with
          | true =>
            rw [List.filter_cons_of_pos (by exact hsys)] at this
            simp only [List.length_cons] at this
            rw [Bool.or_true, if_pos rfl]
            split at this <;> omega
          | false =>
            rw [List.filter_cons_of_neg (by simp [hsys])] at this
            rw [Bool.or_false]
            exact this
        · rw [hs'.2, q1.1]
          rw [Table.find_put_ne _ _ (fun h => hnm h.symm)]
          exact h4

/-! ### groups -/

/-- the sinks stay, groups are only added -/
def Grows (a b : Sys) : Prop := b.sinks = a.sinks ∧ ∀ k, (a.groups.find k).isSome → (b.groups.find k).isSome

theorem Grows.refl (a : Sys) : Grows a a := ⟨rfl, fun _ h => h⟩
theorem Grows.trans {a b c : Sys} (h1 : Grows a b) (h2 : Grows b c) : Grows a c :=
  ⟨h2.1.trans h1.1, fun k h => h2.2 k (h1.2 k h)⟩
theorem Grows.quiet {s s' : St} (h : Quiet s s') : Grows s.sys s'.sys := by rw [h.1]; exact .refl _

theorem calm_fallback {F : Nat} {g : GroupNode} (s : St) :
    Calm (if g.isFallback then call F (.setFallbackGroup g.name) else pure () : M Unit) s fun _ s' => Grows s.sys s'.sys := by
  split
  · unfold Calm call
    simp only [step, setFallbackGroup]
    cases hf : s.sys.groups.find g.name with
    | none => exact .refl _
    | some x =>
      refine ⟨rfl, fun k hk => ?_⟩
      show ((s.sys.groups.put star x).find k).isSome
      by_cases hks : k = star
      · subst hks; rw [Table.find_put_self]; rfl
      · rw [Table.find_put_ne _ _ hks]; exact hk
  · exact .refl _

theorem calm_applyGroup {F : Nat} {g : GroupNode} {parent : Option Text} {s : St}
    (hp : ∀ p, parent = some p → (s.sys.groups.find p).isSome)
    (hk : ∀ k, g.sink = some k → (s.sys.sinks.find k).isSome)
    (hl : parent = none → g.level.isSome) :
    Calm (applyGroup F g parent) s fun _ s' => Grows s.sys s'.sys ∧ (s'.sys.groups.find g.name).isSome := by
  have heq := applyGroup_eq F g parent s
  cases hf : getGroup g.name s.sys with
  | some old =>
    rw [hf] at heq
    suffices h : Calm (updateGroup F g parent >>= fun _ =>
          (if g.isFallback then call F (.setFallbackGroup g.name) else pure () : M Unit)) s
          fun _ s' => Grows s.sys s'.sys ∧ (s'.sys.groups.find g.name).isSome by
      unfold Calm at h ⊢
      rw [heq]
      exact h
    refine Calm.bind (Q := fun _ s' => Grows s.sys s'.sys ∧ s'.sys.groups = s.sys.groups) ?_ ?_
    · unfold Calm
      rcases updateGroup_ok F g parent s with ⟨s', h1, h2, h3⟩ | h1
      · rw [h1]; exact ⟨⟨h3, fun k h => by rw [h2]; exact h⟩, h2⟩
      · rw [h1]; trivial
    · intro _ s' hs'
      refine (calm_fallback s').mono fun _ s2 h2 => ⟨hs'.1.trans h2, h2.2 _ ?_⟩
      rw [hs'.2]
      unfold getGroup at hf
      rw [hf]; rfl
  | none =>
    rw [hf] at heq
    suffices h : Calm (call F (.makeGroup g.name parent g.sink g.level) >>= fun _ =>
          (if g.isFallback then call F (.setFallbackGroup g.name) else pure () : M Unit)) s
          fun _ s' => Grows s.sys s'.sys ∧ (s'.sys.groups.find g.name).isSome by
      unfold Calm at h ⊢
      rw [heq]
      exact h
    refine Calm.bind (Q := fun _ s' => Grows s.sys s'.sys ∧ (s'.sys.groups.find g.name).isSome) ?_ ?_
    · have hmk : ∃ v y, step F s.sys (.makeGroup g.name parent g.sink g.level) = .ret v y ∧ Grows s.sys y ∧ (y.groups.find g.name).isSome := by
        have hgrow : ∀ (h : Nat → Group) (x n : Nat), Grows s.sys { s.sys with ngroups := n, grp := h, groups := Table.put (if (s.sys.groups.find star).isNone then s.sys.groups.put star x else s.sys.groups) g.name x } := by
          intro h x n
          refine ⟨rfl, fun k hk => ?_⟩
          show (Table.find _ k).isSome
          by_cases hkn : k = g.name
          · subst hkn; rw [Table.find_put_self]; rfl
          · rw [Table.find_put_ne _ _ hkn]
            split
            · by_cases hks : k = star
              · subst hks; rw [Table.find_put_self]; rfl
              · rw [Table.find_put_ne _ _ hks]; exact hk
            · exact hk
        have hfound : ∀ (t : Table) (x : Nat), ((t.put g.name x).find g.name).isSome := fun t x => by rw [Table.find_put_self]; rfl
        simp only [step, makeGroup]
        cases hpar : parent with
        | none =>
          have hl' := hl hpar
          cases hlev : g.level with
          | none => rw [hlev] at hl'; cases hl'
          | some l =>
            cases hsk : g.sink with
            | none => exact ⟨_, _, rfl, hgrow _ _ _, hfound _ _⟩
            | some k =>
              have hk' := hk k hsk
              cases hfk : s.sys.sinks.find k with
              | none => rw [hfk] at hk'; cases hk'
              | some j => simp only [hfk, Option.map_some]; exact ⟨_, _, rfl, hgrow _ _ _, hfound _ _⟩
        | some p =>
          have hp' := hp p hpar
          cases hfp : s.sys.groups.find p with
          | none => rw [hfp] at hp'; cases hp'
          | some x =>
            simp only [hfp, Option.map_some]
            have hpp : ∀ (h : Nat → Group) (c : Nat), ((setParentGroup h c (some x)) c).parent.isSome := by
              intro h c
              unfold setParentGroup setSinkFromGroup setLevelFromGroup
              simp only
              repeat' split
              all_goals simp only [upd_same, Option.isSome_some]
            have hps : ∀ (h : Nat → Group) (c k : Nat), (h c).parent.isSome → ((setSink h c k) c).parent.isSome := by
              intro h c k hh
              unfold setSink
              rw [upd_same]
              exact hh
            cases hsk : g.sink with
            | none =>
              cases hlev : g.level with
              | some l => exact ⟨_, _, rfl, hgrow _ _ _, hfound _ _⟩
              | none =>
                simp only
                rw [if_pos (hpp _ _)]
                exact ⟨_, _, rfl, hgrow _ _ _, hfound _ _⟩
            | some k =>
              have hk' := hk k hsk
              cases hfk : s.sys.sinks.find k with
              | none => rw [hfk] at hk'; cases hk'
              | some j =>
                simp only [hfk, Option.map_some]
                cases hlev : g.level with
                | some l => exact ⟨_, _, rfl, hgrow _ _ _, hfound _ _⟩
                | none =>
                  simp only
                  rw [if_pos (hps _ _ _ (hpp _ _))]
                  exact ⟨_, _, rfl, hgrow _ _ _, hfound _ _⟩
      obtain ⟨v, y, h1, h2, h3⟩ := hmk
      unfold Calm call
      rw [h1]
      exact ⟨h2, h3⟩
    · intro _ s' hs'
      exact (calm_fallback s').mono fun _ s2 h2 => ⟨hs'.1.trans h2, h2.2 _ hs'.2⟩

/-- the children of a usable group are the list written -/
theorem children_listOf {W : World} {e : List (Nat × Nat)} {items : List Nat} (h : readChildren W e = some (some items)) :
    listOf W e "children".toList = items := by
  unfold readChildren at h
  unfold listOf
  cases hp : prop W e "children".toList with
  | none => rw [hp] at h; cases h
  | some n =>
    rw [hp] at h
    cases n with
    | seq l => simp only [Option.some.injEq] at h; exact h
    | null => cases h
    | _ => cases h

theorem groupAt_of {W : World} {e : List (Nat × Nat)} (h : GroupReads W e) (parent : Option Text) (t : Table) :
    ∃ o, groupAt W e parent t = some o := by
  unfold groupAt
  rw [keysOk_of h.keys]
  have hf : ∃ b, readFallback W e = some b := by
    unfold readFallback
    cases hp : prop W e "is_fallback".toList with
    | none => exact ⟨_, rfl⟩
    | some n =>
      cases n with
      | scalar t =>
        have := h.fallback t (textAt_scalar hp)
        cases hb : W.asBool t with
        | none => rw [hb] at this; cases this
        | some b => simp only [hb]; exact ⟨_, rfl⟩
      | _ => exact ⟨_, rfl⟩
  obtain ⟨b, hb⟩ := hf
  rw [hb]
  exact ⟨_, rfl⟩

/-- The groups of a readable document are applied. -/
theorem calm_groups {W : World} (F f : Nat) : ∀ (parent : Option Text) (items : List Nat) (i : Nat) (s : St),
    (∀ n, Within W n items → ∀ m, W.node n = .map m → GroupReads W m) →
    (parent = none → ∀ n ∈ items, ∀ m, W.node n = .map m → (prop W m "level".toList).isSome → (namedLevel W m).isSome) →
    (s.sys.sinks.find star).isSome → (∀ p, parent = some p → (s.sys.groups.find p).isSome) →
    Calm (parseGroupList W (parseGroup W F f parent) i items) s fun _ s' => Grows s.sys s'.sys := by
  induction f with
  | zero =>
    intro parent items i s h1 h2 h3 h4
    induction items generalizing i s with
    | nil => exact .refl _
    | cons n ns ih =>
      unfold parseGroupList
      have hw : ∀ {k}, Within W k ns → Within W k (n :: ns) := by
        intro k hk
        cases hk with
        | here h => exact .here (List.mem_cons_of_mem _ h)
        | deeper hm hn h => exact .deeper (List.mem_cons_of_mem _ hm) hn h
      refine Calm.bind (Q := fun _ s' => Grows s.sys s'.sys) ?_ fun _ s' hs' =>
        (ih _ _ (fun k hk => h1 k (hw hk)) (fun hp m hm => h2 hp m (List.mem_cons_of_mem _ hm)) (by rw [hs'.1]; exact h3)
          fun p hp => hs'.2 p (h4 p hp)).mono fun _ s2 hs2 => hs'.trans hs2
      unfold parseGroupItem
      cases hn : W.node n with
      | map e => trivial
      | _ => exact (Calm.reading (Reading.error _) rfl).mono fun _ _ h => Grows.quiet h.2
  | succ f ihf =>
    intro parent items i s h1 h2 h3 h4
    induction items generalizing i s with
    | nil => exact .refl _
    | cons n ns ih =>
      unfold parseGroupList
      have hw : ∀ {k}, Within W k ns → Within W k (n :: ns) := by
        intro k hk
        cases hk with
        | here h => exact .here (List.mem_cons_of_mem _ h)
        | deeper hm hn h => exact .deeper (List.mem_cons_of_mem _ hm) hn h
      refine Calm.bind (Q := fun _ s' => Grows s.sys s'.sys) ?_ fun _ s' hs' =>
        (ih _ _ (fun k hk => h1 k (hw hk)) (fun hp m hm => h2 hp m (List.mem_cons_of_mem _ hm)) (by rw [hs'.1]; exact h3)
          fun p hp => hs'.2 p (h4 p hp)).mono fun _ s2 hs2 => hs'.trans hs2
      unfold parseGroupItem
      cases hn : W.node n with
      | map e =>
        simp only
        rw [parseGroup_succ]
        obtain ⟨o, ho⟩ := groupAt_of (h1 n (.here List.mem_cons_self) e hn) parent s.sys.sinks
        refine Calm.bind (Calm.reading (read_readGroup W i e parent) ho) ?_
        rintro o' s1 ⟨ho', q1⟩
        subst ho'
        unfold afterRead
        cases o' with
        | none => exact Grows.quiet q1
        | some g =>
          simp only
          split
          · exact (Calm.reading (Reading.error _) rfl).mono fun _ _ h => Grows.quiet (q1.trans h.2)
          · obtain ⟨f1, f2, f3, f4⟩ := groupAt_facts ho
            refine Calm.bind (Q := fun _ s' => Grows s.sys s'.sys ∧ (s'.sys.groups.find g.name).isSome) ?_ ?_
            · refine (calm_applyGroup (fun p hp => ?_) (fun k hk => ?_) fun hp => ?_).mono fun _ s2 h => ⟨(Grows.quiet q1).trans h.1, h.2⟩
              · rw [q1.1]; exact h4 p hp
              · rw [q1.1]
                unfold readGroupSink at f4
                cases hps : prop W e "sink".toList with
                | none =>
                  rw [hps] at f4
                  simp only [Prod.mk.injEq] at f4
                  rw [← f4.1] at hk
                  unfold defaultSink at hk
                  split at hk
                  · cases hk; exact h3
                  · cases hk
                | some nd =>
                  rw [hps] at f4
                  cases nd with
                  | scalar t =>
                    simp only [Prod.mk.injEq] at f4
                    rw [← f4.1] at hk
                    cases hk
                    exact f4.2
                  | _ => simp only [Prod.mk.injEq, Bool.false_eq_true, and_false] at f4
              · have hlev : (prop W e "level".toList).isSome := by
                  have hu : (usable (textAt W e "name".toList) ((readFallback W e).getD none) (readGroupSink W e parent s.sys.sinks)
                      ((prop W e "level".toList).isSome || parent.isSome) (levelAt W e) (readChildren W e)) = some g := by
                    unfold groupAt at ho
                    cases hfb : readFallback W e with
                    | none => rw [hfb] at ho; cases ho
                    | some fb =>
                      rw [hfb] at ho
                      have := keysOk_some ho
                      exact Option.some.inj this
                  rw [hp] at hu
                  cases hlv : (prop W e "level".toList).isSome with
                  | true => rfl
                  | false =>
                    rw [hlv] at hu
                    exfalso
                    unfold usable at hu
                    simp only [Option.isSome_none, Bool.or_self] at hu
                    split at hu
                    · rename_i hfalse _; cases hfalse
                    · cases hu
                have := h2 hp n List.mem_cons_self e hn hlev
                rw [← f3, levelAt_named]
                exact this
            · intro _ s2 hs2
              cases hc : g.children with
              | none => exact hs2.1
              | some cs =>
                refine (ihf (some g.name) cs 0 s2 (fun k hk => h1 k (.deeper List.mem_cons_self hn ?_)) (fun h => by cases h)
                  (by rw [hs2.1.1]; exact h3) fun p hp => by cases hp; exact hs2.2).mono fun _ s3 h => hs2.1.trans h
                rw [hc] at f2
                rw [children_listOf f2]
                exact hk
      | _ => exact (Calm.reading (Reading.error _) rfl).mono fun _ _ h => Grows.quiet h.2

/-- A readable document is processed without exceptions. -/
theorem calm_parse {W : World} (F : Nat) {e : List (Nat × Nat)} {s : St} (h : Readable W e s.syslogOpen)
    (hs : (s.sys.sinks.find star).isSome) : Calm (parse W F (.map e)) s fun _ _ => True := by
  unfold parse
  simp only
  have hq : ∀ {m : M Unit}, Reading m (fun _ => some ()) → ∀ s, Calm m s fun _ s' => Quiet s s' :=
    fun hm s => (Calm.reading hm rfl).mono fun _ _ h => h.2
  refine Calm.bind (Q := fun _ s' => Quiet s s') ?_ fun _ s1 q1 => ?_
  · split
    · exact hq (Reading.error _) _
    · exact Quiet.refl _
  refine Calm.bind (Q := fun _ s' => Quiet s s') ?_ fun _ s2 q2 => ?_
  · exact (Calm.reading (read_checkKeys W _ _ e) (keysOk_of h.keys)).mono fun _ _ h => q1.trans h.2
  refine Calm.bind (Q := fun _ s' => (s'.sys.sinks.find star).isSome) ?_ fun _ s3 h3 => ?_
  · have hl := h.sinks
    have hm := h.memory
    have hy := h.syslog
    unfold listOf at hl hm hy
    have h2 : (s2.sys.sinks.find star).isSome := by rw [q2.1]; exact hs
    cases hp : prop W e "sinks".toList with
    | none => exact h2
    | some n =>
      unfold parseSinks
      cases n with
      | seq items =>
        rw [hp] at hl hm hy
        exact calm_sinkList hl hm 0 s2 (by rw [q2.2.2]; exact hy) h2
      | _ => exact (hq (Reading.error _) s2).mono fun _ s' h => by rw [h.1]; exact h2
  · have hg := h.groups
    have hlv := h.levels
    unfold listOf at hg hlv
    cases hp : prop W e "groups".toList with
    | none => trivial
    | some n =>
      unfold parseGroups
      cases n with
      | seq items =>
        rw [hp] at hg hlv
        exact (calm_groups F F none items 0 s3 hg (fun _ => hlv) h3 fun p hp => by cases hp).mono fun _ _ _ => trivial
      | _ => exact (hq (Reading.error _) s3).mono fun _ _ _ => trivial

end Yaml
end Soralog
