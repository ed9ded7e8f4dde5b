import Verif.Model.Overload
import Verif.Props.SinkTree
import Verif.Props.Render
/-!
# C91: what is logged alone appears as it is
-/
namespace Soralog
namespace Overload
open Spec
open Sink (Logger Heap)

/-- `e` carries this text, cut to the limit of the sink, under the logger's name and the level of the call -/
def Carries (name : Text) (v : Level) (maxLen : Nat) (text : Text) (e : Event) : Prop :=
  e.message = text.take maxLen ∧ e.name = name.take 32 ∧ e.level = v

/-- The log call `call` logs `text` as it is: if the logger's level admits it, every queue-owning sink accepts as many events as there are paths of
admitting filters to it (otherwise none), and each of them carries exactly `text`. -/
def Verbatim (fuel : Nat) (g : Logger) (v : Level) (c : Call) (text : Text) (h : Heap) : Prop :=
  ∃ h', say fuel g v c h = some h' ∧ ∀ i, ∃ new, (h'.leaf i).accepted = (h.leaf i).accepted ++ new ∧
    new.length = (if Admits g.level v then deliveries g.sink (fun j => (h.leaf j).cfg.level) v i else 0) ∧
    ∀ e ∈ new, Carries g.name v (h.leaf i).cfg.maxLen text e

theorem eventsOf_replicate (env : Nat → Env) (ti : ThreadInfo) (maxLen start n : Nat) (m : Msg) :
    (eventsOf env ti maxLen start (List.replicate n m)).length = n ∧
    ∀ e ∈ eventsOf env ti maxLen start (List.replicate n m), ∃ x, e = mkEvent x ti maxLen m := by
  induction n generalizing start with
  | zero => exact ⟨rfl, fun e he => by cases he⟩
  | succ n ih =>
    rw [List.replicate_succ]
    obtain ⟨h1, h2⟩ := ih (start + 1)
    refine ⟨by simp [eventsOf, h1], fun e he => ?_⟩
    rcases List.mem_cons.1 he with rfl | he
    · exact ⟨_, rfl⟩
    · exact h2 e he

theorem verbatim_of_ok {g : Logger} (hf : Full g.sink) {h : Heap} (hh : Sink.AllReachable h) {v : Level} {c : Call} {text : Text} (n : Nat)
    (hx : expand c.format c.args = .ok text) : Verbatim (n + 2) g v c text h := by
  obtain ⟨h', h1, h2, _, _⟩ := Sink.C15_delivered_iff_admitted g hf h hh v c.format (.ok text) n
  refine ⟨h', by unfold say; rw [hx]; exact h1, fun i => ⟨_, h2 i, ?_⟩⟩
  obtain ⟨k1, k2⟩ := eventsOf_replicate (h.leaf i).w.env (h.leaf i).cfg.ti (h.leaf i).cfg.maxLen (h.leaf i).accepted.length
    (if Admits g.level v then deliveries g.sink (fun j => (h.leaf j).cfg.level) v i else 0) ⟨g.name, v, c.format, .ok text⟩
  refine ⟨k1, fun e he => ?_⟩
  obtain ⟨x, rfl⟩ := k2 e he
  obtain ⟨m1, _, _, m2, m3, _⟩ := Render.C07_event_text x (h.leaf i).cfg.ti (h.leaf i).cfg.maxLen g.name c.format text v
  exact ⟨m1, m2, m3⟩

theorem expand_value (t : Text) : expand "{}".toList [t] = .ok t := by
  show expand ['{', '}'] [t] = _
  simp [expand, expand.andThen]

/-- **C91** (part): `logger->info(x)` and its siblings log a value, a literal, a C string or a `std::string` as it is, whatever braces it
contains.  Missing: `std::string_view` (`C91_iff_partial`, `C91_refuted`). -/
theorem C91_value_partial (g : Logger) (hf : Full g.sink) (h : Heap) (hh : Sink.AllReachable h) (v : Level) (x : Arg) (hx : x.shape ≠ .view)
    (n : Nat) : Verbatim (n + 2) g v (one x) x.text h := by
  refine verbatim_of_ok hf hh n ?_
  unfold one
  cases hs : x.shape with
  | view => exact absurd hs hx
  | text => exact expand_value x.text
  | other => exact expand_value x.text

/-! ## text that is taken for a format -/

theorem andThen_ok {a : Text} {r : FmtResult} {t : Text} (h : expand.andThen a r = .ok t) : ∃ b, r = .ok b ∧ t = a ++ b := by
  cases r with
  | ok b => exact ⟨b, rfl, (by injection h with h; exact h.symm)⟩
  | error w => cases h

theorem expand_plain {t : Text} (h1 : '{' ∉ t) (h2 : '}' ∉ t) (args : List Text) : expand t args = .ok t := by
  induction t with
  | nil => rw [expand]
  | cons c t ih =>
    have e1 : c ≠ '{' := fun e => h1 (e ▸ List.mem_cons_self)
    have e2 : c ≠ '}' := fun e => h2 (e ▸ List.mem_cons_self)
    have := ih (fun m => h1 (List.mem_cons_of_mem _ m)) (fun m => h2 (List.mem_cons_of_mem _ m))
    rw [expand, this]
    · rfl
    all_goals (intros; simp_all)

/-- without arguments the result is shorter than the format by the number of doubled braces -/
theorem expand_length {t : Text} : ∀ r, expand t [] = .ok r → r.length ≤ t.length ∧ (r.length = t.length → '{' ∉ t ∧ '}' ∉ t) := by
  have key : ∀ (k : Nat) (t : Text), t.length ≤ k → ∀ r, expand t [] = .ok r →
      r.length ≤ t.length ∧ (r.length = t.length → '{' ∉ t ∧ '}' ∉ t) := by
    intro k
    induction k with
    | zero =>
      intro t ht r hr
      cases t with
      | nil => rw [expand] at hr; cases hr; exact ⟨Nat.le_refl _, fun _ => ⟨by simp, by simp⟩⟩
      | cons c t => simp at ht
    | succ k ih =>
      intro t ht r hr
      unfold expand at hr
      split at hr
      · cases hr; exact ⟨Nat.le_refl _, fun _ => ⟨by simp, by simp⟩⟩
      · obtain ⟨b, hb, rfl⟩ := andThen_ok hr
        rename_i rest
        have := (ih rest (by simp at ht; omega) b hb).1
        exact ⟨by simp; omega, fun e => absurd e (by simp; omega)⟩
      · rename_i e; cases e
      · cases hr
      · cases hr
      · obtain ⟨b, hb, rfl⟩ := andThen_ok hr
        rename_i rest
        have := (ih rest (by simp at ht; omega) b hb).1
        exact ⟨by simp; omega, fun e => absurd e (by simp; omega)⟩
      · cases hr
      · rename_i c rest _ n1 _ n2 _ _
        obtain ⟨b, hb, rfl⟩ := andThen_ok hr
        obtain ⟨i1, i2⟩ := ih rest (by simp at ht; omega) b hb
        refine ⟨by simp; omega, fun e => ?_⟩
        obtain ⟨j1, j2⟩ := i2 (by simp at e; omega)
        have c1 : c ≠ '{' := n1
        have c2 : c ≠ '}' := n2
        simp [j1, j2, Ne.symm c1, Ne.symm c2]
  exact key t.length t (Nat.le_refl _)

/-- **C91**, exactly: text that is taken for a format -- a `std::string_view` given to `info` and its siblings, any text given to `log` or to a
macro without further arguments -- comes out as it is if and only if it contains no brace. -/
theorem C91_format_iff_partial (t : Text) :
    (expand (one ⟨.view, t⟩).format (one ⟨.view, t⟩).args = .ok t ↔ '{' ∉ t ∧ '}' ∉ t) ∧
    (∀ s, expand (plainLog ⟨s, t⟩).format (plainLog ⟨s, t⟩).args = .ok t ↔ '{' ∉ t ∧ '}' ∉ t) := by
  have key : expand t [] = .ok t ↔ '{' ∉ t ∧ '}' ∉ t :=
    ⟨fun h => (expand_length t h).2 rfl, fun h => expand_plain h.1 h.2 []⟩
  exact ⟨key, fun _ => key⟩

/-- … and then the call logs it. -/
theorem C91_no_braces_partial (g : Logger) (hf : Full g.sink) (h : Heap) (hh : Sink.AllReachable h) (v : Level) (x : Arg) (h1 : '{' ∉ x.text)
    (h2 : '}' ∉ x.text) (n : Nat) : Verbatim (n + 2) g v (one x) x.text h ∧ Verbatim (n + 2) g v (plainLog x) x.text h := by
  refine ⟨?_, verbatim_of_ok hf hh n (expand_plain h1 h2 [])⟩
  cases hs : x.shape with
  | view => exact verbatim_of_ok hf hh n (by unfold one; rw [hs]; exact expand_plain h1 h2 [])
  | _ => exact C91_value_partial g hf h hh v x (by rw [hs]; simp) n

/-- every brace doubled -/
def escape : Text → Text
  | [] => []
  | c :: t => if c = '{' ∨ c = '}' then c :: c :: escape t else c :: escape t

theorem expand_escape (t : Text) : expand (escape t) [] = .ok t := by
  induction t with
  | nil => rw [escape, expand]
  | cons c t ih =>
    rw [escape]
    split
    · rename_i h
      rcases h with rfl | rfl
      · rw [expand, ih]; rfl
      · rw [expand, ih]; rfl
    · rename_i h
      have e1 : c ≠ '{' := fun e => h (.inl e)
      have e2 : c ≠ '}' := fun e => h (.inr e)
      rw [expand, ih]
      · rfl
      all_goals (intros; simp_all)

/-- **C91**, a way out: with every brace doubled any text comes out as it is. -/
theorem C91_escaped (g : Logger) (hf : Full g.sink) (h : Heap) (hh : Sink.AllReachable h) (v : Level) (s : Shape) (t : Text) (n : Nat) :
    Verbatim (n + 2) g v (plainLog ⟨s, escape t⟩) t h := verbatim_of_ok hf hh n (expand_escape t)

def exampleHeap : Heap := ⟨fun _ => Sink.Leaf.new (Sink.exampleFile .info 1000) Sink.exampleWorld true, false⟩

theorem exampleHeap_reachable : Sink.AllReachable exampleHeap :=
  fun _ => ⟨Sink.exampleFile .info 1000, Sink.exampleWorld, true, ⟨by decide, by decide⟩, [], 0, rfl⟩

/-- **C91**, refuted: a `std::string_view` with braces in it is taken for a format; the text is lost, and in its place an error of the library
appears under another name and level. -/
theorem C91_refuted : ∃ (g : Logger) (h h' : Heap) (t : Text), Full g.sink ∧ Sink.AllReachable h ∧
    say 2 g .info (one ⟨.view, t⟩) h = some h' ∧ ¬ Verbatim 2 g .info (one ⟨.view, t⟩) t h ∧
    (h'.leaf 0).accepted.map (fun e => (e.name, e.level, e.message)) =
      [("Soralog".toList, .error, "Format error: argument not found; Format: a{}b".toList)] := by
  have hd : (say 2 ⟨['x'], .info, .leaf 0⟩ .info (one ⟨.view, ['a', '{', '}', 'b']⟩) exampleHeap).map (fun h => (h.leaf 0).accepted.map (·.level)) =
      some [.error] := by decide +kernel
  refine ⟨⟨['x'], .info, .leaf 0⟩, exampleHeap, _, ['a', '{', '}', 'b'], trivial, exampleHeap_reachable, rfl, ?_, by decide +kernel⟩
  rintro ⟨h', h1, h2⟩
  obtain ⟨new, h3, _, h5⟩ := h2 0
  rw [h1] at hd
  have hd : (h'.leaf 0).accepted.map (·.level) = [.error] := Option.some.inj hd
  have h3 : (h'.leaf 0).accepted = new := h3
  rw [h3] at hd
  cases new with
  | nil => cases hd
  | cons e l =>
    have := (h5 e List.mem_cons_self).2.2
    simp [this] at hd

/-- the hypotheses of the theorems above: an argument full of braces that is no `std::string_view`, and one without braces that is -/
example : Full (Sink.Snk.leaf 0) ∧ Sink.AllReachable exampleHeap ∧ (⟨.text, "{0} }{".toList⟩ : Arg).shape ≠ .view ∧
    '{' ∉ (⟨.view, "100 %".toList⟩ : Arg).text ∧ '}' ∉ (⟨.view, "100 %".toList⟩ : Arg).text ∧ escape ['a', '{'] = ['a', '{', '{'] ∧
    (say 2 ⟨['x'], .info, .leaf 0⟩ .info (one ⟨.text, "{0} }{".toList⟩) exampleHeap).map (fun h => (h.leaf 0).accepted.map (·.message)) =
      some ["{0} }{".toList] :=
  ⟨trivial, exampleHeap_reachable, by decide, by decide, by decide, by decide, by decide +kernel⟩

end Overload
end Soralog
