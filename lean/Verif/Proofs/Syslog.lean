import Verif.Proofs.Sink
import Verif.Proofs.Render
import Verif.Spec.Syslog
/-! # Lemmas about the syslog sink -/
namespace Soralog
namespace Render
open Spec (fixedDigits)

/-! ## the text has no NUL -/

theorem digit_ne_nul (n : Nat) (h : n < 10) : Nat.digitChar n ≠ '\x00' := by
  have : n = 0 ∨ n = 1 ∨ n = 2 ∨ n = 3 ∨ n = 4 ∨ n = 5 ∨ n = 6 ∨ n = 7 ∨ n = 8 ∨ n = 9 := by omega
  rcases this with h | h | h | h | h | h | h | h | h | h <;> subst h <;> decide

theorem fixedDigits_no_nul (k n : Nat) : '\x00' ∉ fixedDigits k n := by
  induction k generalizing n with
  | zero => simp [fixedDigits]
  | succ k ih =>
    simp only [fixedDigits, List.mem_append, List.mem_singleton, not_or]
    exact ⟨ih _, fun h => digit_ne_nul (n % 10) (by omega) h.symm⟩

theorem toDigits_no_nul (n : Nat) : '\x00' ∉ Nat.toDigits 10 n := by
  intro h
  have := Nat.isDigit_of_mem_toDigits (by omega) (by omega) h
  exact absurd this (by decide)

theorem stamp_no_nul (lt : LocalTime) (sec : Int) : '\x00' ∉ stamp lt sec := by
  have h : ∀ n, '\x00' ∉ fixedDigits 2 n := fixedDigits_no_nul 2
  simp only [stamp, Spec.dateTime, List.mem_append, List.mem_singleton, not_or]
  refine ⟨⟨⟨⟨⟨⟨⟨⟨⟨⟨h _, by decide⟩, h _⟩, by decide⟩, h _⟩, by decide⟩, h _⟩, by decide⟩, h _⟩, by decide⟩, h _⟩

theorem levelName_no_nul (l : Level) : '\x00' ∉ Spec.levelWord l := by cases l <;> decide

theorem compact_no_nul {dt : Text} {ti : ThreadInfo} {e : Event} {m : Nat} (hw : WF m e) (hd : '\x00' ∉ dt) (hn : '\x00' ∉ e.name)
    (hm : '\x00' ∉ e.message) : '\x00' ∉ compact dt ti e := by
  have ht : '\x00' ∉ syslogThread ti e := by
    cases ti
    · simp [syslogThread]
    · simp only [syslogThread, List.mem_append, not_or]; exact ⟨hw.tnul, by decide⟩
    · simp only [syslogThread, List.mem_append, not_or]; exact ⟨⟨by decide, toDigits_no_nul _⟩, by decide⟩
  simp only [compact, Spec.compactRecord, List.mem_append, List.mem_singleton, not_or]
  exact ⟨⟨⟨⟨⟨⟨⟨⟨⟨hd, by decide⟩, fixedDigits_no_nul _ _⟩, by decide⟩, ht⟩, levelName_no_nul _⟩, by decide⟩, hn⟩, by decide⟩, hm⟩

/-! ## the buffer only grows; when it overflows -/

theorem W.puts_eq (w : W) (s : Text) (h : w.out.length ≤ w.cap) :
    w.puts s = { w with out := w.out ++ s, overflow := w.overflow || decide (w.cap < w.out.length + s.length) } := by
  unfold W.puts
  induction s generalizing w with
  | nil => cases w; simp at h ⊢; omega
  | cons c s ih =>
    by_cases hc : w.out.length + 1 ≤ w.cap
    · rw [List.foldl_cons, ih _ (by simp [W.put]; omega)]
      simp only [W.put, List.length_append, List.length_cons, List.length_nil, List.append_assoc, List.cons_append, List.nil_append]
      congr 1
      have : decide (w.cap ≤ w.out.length) = false := by simp; omega
      rw [this, Bool.or_false]
      congr 2
      simp; omega
    · have key : ∀ (s : Text) (w : W), w.overflow = true → s.foldl W.put w = { w with out := w.out ++ s } := by
        intro s
        induction s with
        | nil => intro w _; simp
        | cons d s ih => intro w hw; rw [List.foldl_cons, ih _ (by simp [W.put, hw])]; simp [W.put, hw]
      rw [List.foldl_cons, key _ _ (by simp [W.put]; right; omega)]
      simp only [W.put, List.append_assoc, List.cons_append, List.nil_append, List.length_cons]
      congr 1
      congr 1
      simp; omega

theorem W.puts_out (w : W) (s : Text) : (w.puts s).out = w.out ++ s ∧ (w.puts s).cap = w.cap ∧ (w.overflow = true → (w.puts s).overflow = true) := by
  unfold W.puts
  induction s generalizing w with
  | nil => simp
  | cons c s ih =>
    rw [List.foldl_cons]
    obtain ⟨h1, h2, h3⟩ := ih (w.put c)
    refine ⟨by rw [h1]; simp [W.put], by rw [h2]; rfl, fun h => h3 (by simp [W.put, h])⟩

/-- `f` only appends, and does not forget an overflow -/
def Grows (f : W → W) : Prop :=
  ∀ w, (∃ t, (f w).out = w.out ++ t) ∧ (f w).cap = w.cap ∧ (w.overflow = true → (f w).overflow = true)

theorem Grows.comp {f g : W → W} (hf : Grows f) (hg : Grows g) : Grows (fun w => g (f w)) := by
  intro w
  obtain ⟨⟨t, h1⟩, h2, h3⟩ := hf w
  obtain ⟨⟨u, g1⟩, g2, g3⟩ := hg (f w)
  exact ⟨⟨t ++ u, by rw [g1, h1, List.append_assoc]⟩, by rw [g2, h2], fun h => g3 (h3 h)⟩

theorem grows_puts (s : Text) : Grows (fun w => w.puts s) := fun w => ⟨⟨s, (W.puts_out w s).1⟩, (W.puts_out w s).2.1, (W.puts_out w s).2.2⟩
theorem grows_put (c : Char) : Grows (fun w => w.put c) := grows_puts [c]
theorem grows_sep : Grows (fun w => w.sep) := grows_puts _
theorem grows_fmt (s : Text) : Grows (fun w => w.fmt s) := by
  intro w
  show (∃ t, (W.fmt w s).out = _) ∧ (W.fmt w s).cap = _ ∧ (_ → (W.fmt w s).overflow = _)
  unfold W.fmt
  split
  · exact grows_puts _ w
  · exact grows_puts _ w

theorem grows_id : Grows (fun w => w) := fun w => ⟨⟨[], by simp⟩, rfl, id⟩

theorem grows_threadSyslog (ti : ThreadInfo) (e : Event) : Grows (fun w => w.threadSyslog ti e) := by
  cases ti
  · exact grows_id
  · exact (grows_puts e.threadName).comp grows_sep
  · exact (grows_fmt ("T:".toList ++ Nat.toDigits 10 e.threadNumber)).comp grows_sep

theorem grows_syslogRecord (lt : LocalTime) (ti : ThreadInfo) (c : Cache) (e : Event) : Grows (fun w => (syslogRecord lt ti c w e).1) := by
  unfold syslogRecord
  simp only [W.levelShort_eq]
  exact ((((((((((grows_puts (c.update lt (Spec.second e.timestamp)).datetime).comp
    (grows_fmt (['.'] ++ padZero 6 (decInt (usecOf e.timestamp))))).comp grows_sep).comp
    (grows_threadSyslog ti e)).comp (grows_puts (Spec.levelWord e.level))).comp grows_sep).comp
    (grows_puts e.name)).comp grows_sep).comp (grows_puts e.message)).comp (grows_put '\x00'))

/-- `f` appends `s` and stores outside the buffer exactly if there is no room for `s` -/
structure Exact (f : W → W) (s : Text) : Prop where
  writes : Writes f s
  grows : Grows f
  over : ∀ w : W, w.out.length ≤ w.cap → w.cap < w.out.length + s.length → (f w).overflow = true

theorem Exact.comp {f g : W → W} {a b : Text} (hf : Exact f a) (hg : Exact g b) : Exact (fun w => g (f w)) (a ++ b) := by
  refine ⟨hf.writes.comp hg.writes, hf.grows.comp hg.grows, fun w h1 h2 => ?_⟩
  by_cases ha : w.cap < w.out.length + a.length
  · exact (hg.grows _).2.2 (hf.over w h1 ha)
  · have := hf.writes w (by omega)
    show (g (f w)).overflow = true
    rw [this]
    apply hg.over
    · simp; omega
    · simp at h2 ⊢; omega

theorem exact_puts (s : Text) : Exact (fun w => w.puts s) s :=
  ⟨writes_puts s, grows_puts s, fun w h1 h2 => by rw [W.puts_eq w s h1]; simp; right; exact h2⟩

theorem exact_put (c : Char) : Exact (fun w => w.put c) [c] := exact_puts [c]
theorem exact_sep : Exact (fun w => w.sep) [' ', ' '] := exact_puts _
theorem exact_fmtSep (s : Text) : Exact (fun w => (w.fmt s).sep) (s ++ [' ', ' ']) := by
  refine ⟨(writes_fmt s).comp writes_sep, (grows_fmt s).comp grows_sep, fun w h1 h2 => ?_⟩
  show (W.sep (W.fmt w s)).overflow = true
  unfold W.fmt
  rw [if_pos h1]
  by_cases hs : w.out.length + s.length ≤ w.cap
  · rw [List.take_of_length_le (by omega), W.puts_fits w s hs]
    apply exact_sep.over
    · simp; omega
    · simp at h2 ⊢; omega
  · rw [W.puts_fits w _ (by simp [List.length_take]; omega)]
    apply exact_sep.over
    · simp [List.length_take]; omega
    · simp [List.length_take]; omega

theorem exact_id : Exact (fun w => w) [] := ⟨fun w _ => by simp, grows_id, fun w h1 h2 => by simp at h2; omega⟩

theorem exact_threadSyslog (ti : ThreadInfo) (e : Event) : Exact (fun w => w.threadSyslog ti e) (syslogThread ti e) := by
  cases ti
  · exact exact_id
  · exact (exact_puts e.threadName).comp exact_sep
  · exact exact_fmtSep ("T:".toList ++ Nat.toDigits 10 e.threadNumber)

theorem exact_syslogRecord (lt : LocalTime) (ti : ThreadInfo) (c : Cache) (e : Event) {m : Nat} (hw : WF m e) :
    Exact (fun w => (syslogRecord lt ti c w e).1) (compact (c.update lt (Spec.second e.timestamp)).datetime ti e ++ ['\x00']) := by
  obtain ⟨eu, hu⟩ := usec_nonneg hw.ts
  have key := (((((((((exact_puts (c.update lt (Spec.second e.timestamp)).datetime).comp
    (exact_fmtSep (['.'] ++ padZero 6 (decInt (usecOf e.timestamp))))).comp
    (exact_threadSyslog ti e)).comp (exact_puts (Spec.levelWord e.level))).comp exact_sep).comp
    (exact_puts e.name)).comp exact_sep).comp (exact_puts e.message)).comp (exact_put '\x00'))
  rw [eu, padZero_eq 6 _ hu (by omega)] at key
  have ea : compact (c.update lt (Spec.second e.timestamp)).datetime ti e ++ ['\x00'] =
      (c.update lt (Spec.second e.timestamp)).datetime ++ (['.'] ++ fixedDigits 6 (Spec.micros e.timestamp) ++ [' ', ' ']) ++
      syslogThread ti e ++ Spec.levelWord e.level ++ [' ', ' '] ++ e.name ++ [' ', ' '] ++ e.message ++ ['\x00'] := by
    simp [compact, Spec.compactRecord]
  rw [ea]
  have hf : (fun w => (syslogRecord lt ti c w e).1) = _ := rfl
  unfold syslogRecord
  simp only [eu, padZero_eq 6 _ hu (show 0 < 6 by omega), W.levelShort_eq]
  exact key

end Render

namespace Sink
open Render Spec

theorem priority_eq (l : Level) : priority l = syslogPriority l := by cases l <;> rfl

theorem cstr_append {a b : Text} (h : '\x00' ∉ a) : cstr (a ++ '\x00' :: b) = a := by
  unfold cstr
  induction a with
  | nil => simp
  | cons c a ih =>
    simp only [List.mem_cons, not_or] at h
    rw [List.cons_append, List.takeWhile_cons_of_pos (by simpa using fun hc => h.1 hc.symm), ih h.2]

/-- the number, the order and the priorities of the calls -/
theorem drain_priorities (es : List Event) (c : Cache) (w : W) (l : Leaf) :
    (Leaf.drainSyslog es c w l).written.map (·.1) = l.written.map (·.1) ++ es.filterMap fun e => priority e.level := by
  induction es generalizing c w l with
  | nil => simp [Leaf.drainSyslog]
  | cons e es ih =>
    rw [Leaf.drainSyslog]
    dsimp only
    rw [ih]
    cases hp : priority e.level with
    | none => simp [hp]
    | some p => simp [hp]

/-- once the buffer begins with a text and a NUL, every call gets this text -/
theorem drain_same (es : List Event) (c : Cache) (w : W) (l : Leaf) {a b : Text} (hw : w.out = a ++ '\x00' :: b) (ha : '\x00' ∉ a) :
    (Leaf.drainSyslog es c w l).written = l.written ++ callsFor (fun _ => a) es := by
  induction es generalizing c w l b with
  | nil => simp [Leaf.drainSyslog, callsFor]
  | cons e es ih =>
    rw [Leaf.drainSyslog]
    dsimp only
    obtain ⟨⟨t, ht⟩, _, _⟩ := grows_syslogRecord l.w.lt l.cfg.ti c e w
    have ht : (syslogRecord l.w.lt l.cfg.ti c w e).1.out = a ++ '\x00' :: (b ++ t) := by rw [ht, hw]; simp
    rw [ih _ _ _ ht]
    cases hp : priority e.level with
    | none => simp [callsFor, ← priority_eq, hp]
    | some p => simp [callsFor, ← priority_eq, hp, ht, cstr_append ha]

theorem drain_over (es : List Event) (c : Cache) (w : W) (l : Leaf) (h : w.overflow = true) :
    (Leaf.drainSyslog es c w l).ub = true := by
  induction es generalizing c w l with
  | nil => simp [Leaf.drainSyslog, h]
  | cons e es ih =>
    rw [Leaf.drainSyslog]
    exact ih _ _ _ ((grows_syslogRecord l.w.lt l.cfg.ti c e w).2.2 h)

/-- when draining stores outside the buffer -/
theorem drain_ub (es : List Event) (c : Cache) (w : W) (l : Leaf) {m : Nat} (hes : ∀ e ∈ es, WF m e) (h1 : w.out.length ≤ w.cap)
    (h2 : w.overflow = false) (hc : c.datetime.length = 17) :
    (Leaf.drainSyslog es c w l).ub = (l.ub || decide (w.cap < w.out.length +
      (es.map fun e => (compact (stamp l.w.lt 0) l.cfg.ti e).length + 1).sum)) := by
  induction es generalizing c w l with
  | nil => simp [Leaf.drainSyslog, h2]; intro; omega
  | cons e es ih =>
    rw [Leaf.drainSyslog]
    dsimp only
    have hex := exact_syslogRecord l.w.lt l.cfg.ti c e (hes e List.mem_cons_self)
    have hdl := Cache.update_length l.w.lt c (Spec.second e.timestamp) hc
    have hlen : (compact (c.update l.w.lt (Spec.second e.timestamp)).datetime l.cfg.ti e).length =
        (compact (stamp l.w.lt 0) l.cfg.ti e).length := by
      simp [compact, compactRecord, hdl, stamp_length]
    have hnil : ∀ (w' : W) (l' : Leaf), l'.w = l.w → l'.cfg = l.cfg → l'.ub = l.ub → w' = (syslogRecord l.w.lt l.cfg.ti c w e).1 →
        (Leaf.drainSyslog es (c.update l.w.lt (Spec.second e.timestamp)) w' l').ub = (l.ub || decide (w.cap < w.out.length +
      ((e :: es).map fun e => (compact (stamp l.w.lt 0) l.cfg.ti e).length + 1).sum)) := by
      intro w' l' e1 e2 e3 ew
      subst ew
      by_cases hfit : w.out.length + ((compact (c.update l.w.lt (Spec.second e.timestamp)).datetime l.cfg.ti e).length + 1) ≤ w.cap
      · have hwr : (syslogRecord l.w.lt l.cfg.ti c w e).1 = _ := hex.writes w (by simpa using hfit)
        have := ih (c.update l.w.lt (Spec.second e.timestamp))
          { w with out := w.out ++ (compact (c.update l.w.lt (Spec.second e.timestamp)).datetime l.cfg.ti e ++ ['\x00']) } l'
          (fun x hx => hes x (List.mem_cons_of_mem _ hx)) (by simp; omega) h2 hdl
        rw [hwr, this, e1, e2, e3]
        simp [hlen, Nat.add_assoc]
      · have hov : (syslogRecord l.w.lt l.cfg.ti c w e).1.overflow = true := hex.over w h1 (by simp; omega)
        rw [drain_over _ _ _ _ hov, List.map_cons, List.sum_cons, ← hlen]
        symm
        rw [Bool.or_eq_true]
        right
        exact decide_eq_true (by omega)
    cases hp : priority e.level with
    | none => exact hnil _ _ rfl rfl rfl rfl
    | some p => exact hnil _ _ rfl rfl rfl rfl

end Sink
end Soralog
