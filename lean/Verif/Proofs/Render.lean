import Verif.Spec.RecordTerms
import Verif.Model.Render
import Verif.Spec.Record
/-! # Lemmas about rendering -/
namespace Soralog
namespace Render
open Spec (fixedDigits column)

theorem W.puts_fits (w : W) (s : Text) (h : w.out.length + s.length ≤ w.cap) :
    w.puts s = { w with out := w.out ++ s } := by
  unfold W.puts
  induction s generalizing w with
  | nil => simp
  | cons c s ih =>
    simp only [List.length_cons] at h
    rw [List.foldl_cons, ih]
    · simp [W.put]; omega
    · simp [W.put]; omega

theorem W.put_fits (w : W) (c : Char) (h : w.out.length + 1 ≤ w.cap) :
    w.put c = { w with out := w.out ++ [c] } := W.puts_fits w [c] h

theorem W.fmt_fits (w : W) (s : Text) (h : w.out.length + s.length ≤ w.cap) :
    w.fmt s = { w with out := w.out ++ s } := by
  unfold W.fmt
  rw [if_pos (by omega), List.take_of_length_le (by omega), W.puts_fits w s h]

theorem padZero_eq (k n : Nat) (h : n < 10 ^ k) (hk : 0 < k) :
    padZero k (Nat.toDigits 10 n) = fixedDigits k n := by
  induction k generalizing n with
  | zero => omega
  | succ k ih =>
    by_cases hn : n < 10
    · rw [Nat.toDigits_of_lt_base hn]
      have h0 : ∀ k, fixedDigits k 0 = List.replicate k '0' := by
        intro k; induction k with
        | zero => rfl
        | succ k ih => rw [fixedDigits, ih, List.replicate_succ']; rfl
      rw [fixedDigits, Nat.div_eq_of_lt hn, h0, Nat.mod_eq_of_lt hn]
      simp [padZero]
    · have hge : 10 ≤ n := by omega
      rw [Nat.toDigits_of_base_le (by omega) hge, fixedDigits]
      have hk0 : 0 < k := by
        rcases Nat.eq_zero_or_pos k with rfl | hk
        · simp at h; omega
        · exact hk
      have hlt : n / 10 < 10 ^ k := by
        apply Nat.div_lt_of_lt_mul; rw [Nat.pow_succ] at h; omega
      rw [← ih (n / 10) hlt hk0]
      unfold padZero
      simp only [List.length_append, List.length_cons, List.length_nil, Nat.add_sub_add_right]
      rw [List.append_assoc]

theorem fixedDigits_length (k n : Nat) : (fixedDigits k n).length = k := by
  induction k generalizing n with
  | zero => rfl
  | succ k ih => simp [fixedDigits, ih]

theorem padRight_eq (n : Nat) (s : Text) : padRight n s = column n s := rfl

theorem dateText_eq (t : Tm) (h : t.Ok) :
    dateText t = Spec.dateTime t.year t.mon t.mday t.hour t.min t.sec := by
  obtain ⟨h1, h2, h3, h4, h5, h6⟩ := h
  unfold dateText Spec.dateTime
  simp only [padZero_eq 2 _ (show _ < 10 ^ 2 from h1) (by omega),
    padZero_eq 2 _ (show _ < 10 ^ 2 from h2) (by omega),
    padZero_eq 2 _ (show _ < 10 ^ 2 from h3) (by omega),
    padZero_eq 2 _ (show _ < 10 ^ 2 from h4) (by omega),
    padZero_eq 2 _ (show _ < 10 ^ 2 from h5) (by omega),
    padZero_eq 2 _ (show _ < 10 ^ 2 from h6) (by omega)]

theorem dateTime_length (y mo d h mi s : Nat) : (Spec.dateTime y mo d h mi s).length = 17 := by
  simp [Spec.dateTime, fixedDigits_length]

theorem stamp_length (lt : LocalTime) (sec : Int) : (stamp lt sec).length = 17 := dateTime_length ..

/-- The cache holds the conversion of `psec` (or nothing yet). -/
def Cache.Good (lt : LocalTime) (c : Cache) : Prop := c.datetime = stamp lt c.psec

theorem Cache.update_good (lt : LocalTime) (hlt : ∀ s, (lt s).Ok) (c : Cache) (sec : Int)
    (hlen : c.datetime.length = 17) (h : c.Good lt ∨ c.psec ≠ sec) :
    (c.update lt sec).Good lt ∧ (c.update lt sec).psec = sec := by
  unfold Cache.update
  split
  · refine ⟨?_, rfl⟩
    have hl : (dateText (lt sec)).length = 17 := by rw [dateText_eq _ (hlt sec)]; exact dateTime_length ..
    show (dateText (lt sec)).take 17 ++ c.datetime.drop ((dateText (lt sec)).take 17).length = _
    rw [List.take_of_length_le (by omega), hl, List.drop_of_length_le (by omega), List.append_nil,
      dateText_eq _ (hlt sec)]
    rfl
  next hne =>
    have : c.psec = sec := by
      rcases Classical.em (c.psec = sec) with h | h
      · exact h
      · exact absurd h hne
    exact ⟨h.resolve_right (fun h => h this), this⟩

theorem Cache.update_length (lt : LocalTime) (c : Cache) (sec : Int) (hlen : c.datetime.length = 17) :
    (c.update lt sec).datetime.length = 17 := by
  unfold Cache.update
  split
  · simp [hlen]; omega
  · exact hlen

/-- the level is one an event in a sink can have -/
def RealLevel (l : Level) : Prop := Level.critical ≤ l ∧ l ≤ Level.trace

theorem secOf_eq : secOf = Spec.second := rfl

theorem usec_nonneg {ts : Int} (h : 0 ≤ ts) :
    decInt (usecOf ts) = Nat.toDigits 10 (Spec.micros ts) ∧ Spec.micros ts < 10 ^ 6 := by
  have e : usecOf ts = ts % 1000000000 / 1000 := by
    unfold usecOf
    rw [Int.tmod_eq_emod_of_nonneg h, Int.tdiv_eq_ediv_of_nonneg (Int.emod_nonneg _ (by decide))]
  have h1 : 0 ≤ ts % 1000000000 / 1000 := by omega
  constructor
  · rw [e]
    unfold Spec.micros
    obtain ⟨n, hn⟩ := Int.eq_ofNat_of_zero_le h1
    rw [hn]; rfl
  · unfold Spec.micros; omega

theorem digits_len_le20 {n : Nat} (h : n < 2 ^ 64) : (Nat.toDigits 10 n).length ≤ 20 := by
  rw [Nat.length_toDigits_le_iff (by omega) (by omega)]
  omega

/-- the table of the code gives the specified word -/
theorem toStr_word (l : Level) : ((Level.toStr? l).getD "").toList = Spec.levelWord l := by cases l <;> decide

theorem levelName_len (l : Level) : (Spec.levelWord l).length ≤ 8 := by cases l <;> decide

theorem column_length {n : Nat} {s : Text} : (column n s).length = max n s.length := by
  simp [column]; omega

theorem threadColumn_len {ti : ThreadInfo} {e : Event} {m : Nat} (h : WF m e) :
    (threadColumn ti e).text.length ≤ 24 := by
  have := digits_len_le20 h.tnum
  have := h.tname
  cases ti <;> simp [threadColumn, Spec.ThreadColumn.text, column_length] <;> omega

theorem takeWhile_noNul {s : Text} (h : '\x00' ∉ s) : s.takeWhile (· ≠ '\x00') = s := by
  induction s with
  | nil => rfl
  | cons c s ih =>
    have h1 : c ≠ '\x00' := fun e => h (e ▸ List.mem_cons_self ..)
    have h2 : '\x00' ∉ s := fun e => h (List.mem_cons_of_mem _ e)
    rw [List.takeWhile_cons]
    simp only [ne_eq, h1, not_false_eq_true, decide_true, if_true]
    congr 1
    exact ih h2

theorem W.sep_fits (w : W) (h : w.out.length + 2 ≤ w.cap) : w.sep = { w with out := w.out ++ [' ', ' '] } :=
  W.puts_fits w _ h

theorem W.levelShort_eq (w : W) (l : Level) : w.levelShort l = w.puts (Spec.levelWord l) := by
  unfold W.levelShort; rw [toStr_word]

theorem W.level_fits (w : W) (l : Level) (h : w.out.length + 8 ≤ w.cap) :
    w.level l = { w with out := w.out ++ column 8 (Spec.levelWord l) } := by
  have hl := levelName_len l
  unfold W.level
  rw [toStr_word]
  show (w.puts (Spec.levelWord l)).puts (List.replicate (8 - (Spec.levelWord l).length) ' ') = _
  rw [W.puts_fits w _ (by omega), W.puts_fits _ _ (by simp; omega)]
  simp [column]

theorem W.thread_fits (w : W) (ti : ThreadInfo) (e : Event) {m : Nat} (hw : WF m e)
    (h : w.out.length + (threadColumn ti e).text.length ≤ w.cap) :
    w.thread ti e = { w with out := w.out ++ (threadColumn ti e).text } := by
  cases ti with
  | none => simp [W.thread, threadColumn, Spec.ThreadColumn.text]
  | name =>
    have h15 := hw.tname
    simp only [threadColumn, Spec.ThreadColumn.text, List.length_append, column_length, List.length_cons,
      List.length_nil] at h
    unfold W.thread W.putWidth
    dsimp only
    rw [takeWhile_noNul hw.tnul, List.take_of_length_le (by omega)]
    rw [W.puts_fits w _ (by omega), W.puts_fits _ _ (by simp; omega), W.sep_fits _ (by simp; omega)]
    simp [threadColumn, Spec.ThreadColumn.text, column]
  | id =>
    simp only [threadColumn, Spec.ThreadColumn.text, List.length_append, column_length, List.length_cons,
      List.length_nil] at h
    have e1 : ("T:".toList ++ padRight 6 (Nat.toDigits 10 e.threadNumber)).length =
        2 + max 6 (Nat.toDigits 10 e.threadNumber).length := by
      rw [padRight_eq, List.length_append, column_length]; rfl
    unfold W.thread
    dsimp only
    rw [W.fmt_fits w _ (by omega), W.sep_fits _ (by simp only [List.length_append]; rw [← List.length_append, e1]; omega)]
    simp [threadColumn, Spec.ThreadColumn.text, padRight_eq]

/-- the plain record of an event, date-time column given -/
def plain (dt : Text) (ti : ThreadInfo) (e : Event) : Text :=
  Spec.record dt (Spec.micros e.timestamp) (threadColumn ti e) (Spec.levelWord e.level) e.name e.message

theorem plain_length (dt : Text) (ti : ThreadInfo) (e : Event) (hd : dt.length = 17) :
    (plain dt ti e).length =
      39 + (threadColumn ti e).text.length + e.name.length + e.message.length := by
  have := levelName_len e.level
  simp [plain, Spec.record, hd, fixedDigits_length, column_length]
  omega

theorem plain_eq_assoc (dt : Text) (ti : ThreadInfo) (e : Event) :
    plain dt ti e = dt ++ (['.'] ++ fixedDigits 6 (Spec.micros e.timestamp)) ++ [' ', ' '] ++ (threadColumn ti e).text ++
      column 8 (Spec.levelWord e.level) ++ [' ', ' '] ++ e.name ++ [' ', ' '] ++ e.message ++ ['\n'] := by
  simp [plain, Spec.record]

/-- `f` appends exactly `s` whenever there is room for it. -/
def Writes (f : W → W) (s : Text) : Prop :=
  ∀ w : W, w.out.length + s.length ≤ w.cap → f w = { w with out := w.out ++ s }

theorem Writes.comp {f g : W → W} {a b : Text} (hf : Writes f a) (hg : Writes g b) :
    Writes (fun w => g (f w)) (a ++ b) := by
  intro w h
  simp only [List.length_append] at h
  show g (f w) = _
  rw [hf w (by omega), hg _ (by simp; omega)]
  simp

theorem writes_puts (s : Text) : Writes (fun w => w.puts s) s := fun w h => W.puts_fits w s h
theorem writes_put (c : Char) : Writes (fun w => w.put c) [c] := fun w h => W.put_fits w c h
theorem writes_fmt (s : Text) : Writes (fun w => w.fmt s) s := fun w h => W.fmt_fits w s h
theorem writes_sep : Writes (fun w => w.sep) [' ', ' '] := fun w h => W.sep_fits w h
theorem writes_level (l : Level) : Writes (fun w => w.level l) (column 8 (Spec.levelWord l)) := fun w h =>
  W.level_fits w l (by have := levelName_len l; rw [column_length] at h; omega)
theorem writes_thread (ti : ThreadInfo) (e : Event) {m : Nat} (hw : WF m e) :
    Writes (fun w => w.thread ti e) (threadColumn ti e).text := fun w h => W.thread_fits w ti e hw h

/-- The file sink writes exactly the plain record when it fits. -/
theorem fileRecord_fits (lt : LocalTime) (ti : ThreadInfo) (c : Cache) (w : W) (e : Event) {m : Nat}
    (hw : WF m e)
    (h : w.out.length + (plain (c.update lt (Spec.second e.timestamp)).datetime ti e).length ≤ w.cap) :
    fileRecord lt ti c w e =
      ({ w with out := w.out ++ plain (c.update lt (Spec.second e.timestamp)).datetime ti e },
       c.update lt (Spec.second e.timestamp)) := by
  refine Prod.ext ?_ rfl
  obtain ⟨eu, hu⟩ := usec_nonneg hw.ts
  have key := ((((((((((writes_puts (c.update lt (Spec.second e.timestamp)).datetime).comp
    (writes_fmt (['.'] ++ padZero 6 (decInt (usecOf e.timestamp))))).comp writes_sep).comp
    (writes_thread ti e hw)).comp (writes_level e.level)).comp writes_sep).comp (writes_puts e.name)).comp
    writes_sep).comp (writes_puts e.message)).comp (writes_put '\n'))
  rw [eu, padZero_eq 6 _ hu (by omega)] at key
  have e1 := key w (by rw [← plain_eq_assoc]; exact h)
  unfold fileRecord
  rw [eu, padZero_eq 6 _ hu (by omega), plain_eq_assoc]
  exact e1

/-- the coloured record -/
def colored (bf : Bool) (dt : Text) (ti : ThreadInfo) (e : Event) : Text :=
  dt ++ foreground gray ++ (['.'] ++ fixedDigits 6 (Spec.micros e.timestamp)) ++ resetColor ++ [' ', ' '] ++
  (threadColumn ti e).text ++ levelStyle bf e.level ++ column 8 (Spec.levelWord e.level) ++ resetColor ++ [' ', ' '] ++
  bold ++ e.name ++ resetColor ++ [' ', ' '] ++ textStyle e.level ++ e.message ++ resetColor ++ ['\n']

theorem resetColor_len : resetColor.length = 4 := by decide
theorem bold_len : bold.length = 4 := by decide
theorem fgGray_len : (foreground gray).length = 19 := by decide
theorem levelStyle_len (bf : Bool) (l : Level) : (levelStyle bf l).length ≤ 23 := by
  cases bf <;> cases l <;> decide
theorem textStyle_len (l : Level) : (textStyle l).length ≤ 4 := by cases l <;> decide

theorem colored_length (bf : Bool) (dt : Text) (ti : ThreadInfo) (e : Event) (hd : dt.length = 17) :
    (colored bf dt ti e).length =
      78 + (threadColumn ti e).text.length + (levelStyle bf e.level).length + e.name.length +
        (textStyle e.level).length + e.message.length := by
  have := levelName_len e.level
  simp [colored, hd, fixedDigits_length, column_length, resetColor_len, bold_len, fgGray_len]
  omega

theorem consoleRecord_plain (lt : LocalTime) (ti : ThreadInfo) (bf : Bool) (c : Cache) (w : W) (e : Event) :
    consoleRecord lt ti false bf c w e = fileRecord lt ti c w e := rfl

theorem consoleRecord_fits (lt : LocalTime) (ti : ThreadInfo) (bf : Bool) (c : Cache) (w : W) (e : Event)
    {m : Nat} (hw : WF m e)
    (h : w.out.length + (colored bf (c.update lt (Spec.second e.timestamp)).datetime ti e).length ≤ w.cap) :
    consoleRecord lt ti true bf c w e =
      ({ w with out := w.out ++ colored bf (c.update lt (Spec.second e.timestamp)).datetime ti e },
       c.update lt (Spec.second e.timestamp)) := by
  refine Prod.ext ?_ rfl
  obtain ⟨eu, hu⟩ := usec_nonneg hw.ts
  have key := ((((((((((((((((((writes_puts (c.update lt (Spec.second e.timestamp)).datetime).comp
    (writes_puts (foreground gray))).comp
    (writes_fmt (['.'] ++ padZero 6 (decInt (usecOf e.timestamp))))).comp
    (writes_puts resetColor)).comp writes_sep).comp
    (writes_thread ti e hw)).comp (writes_puts (levelStyle bf e.level))).comp (writes_level e.level)).comp
    (writes_puts resetColor)).comp writes_sep).comp (writes_puts bold)).comp (writes_puts e.name)).comp
    (writes_puts resetColor)).comp writes_sep).comp (writes_puts (textStyle e.level))).comp
    (writes_puts e.message)).comp (writes_puts resetColor)).comp (writes_put '\n'))
  rw [eu, padZero_eq 6 _ hu (by omega)] at key
  have e1 := key w h
  unfold consoleRecord
  rw [eu, padZero_eq 6 _ hu (by omega)]
  exact e1

/-! ## Escape sequences -/

theorem strip_append {a b : Text} (h : esc ∉ a) :
    Spec.stripEscapes (a ++ b) = a ++ Spec.stripEscapes b := by
  induction a with
  | nil => rfl
  | cons c a ih =>
    have h1 : c ≠ '\x1b' := fun e => h (e ▸ List.mem_cons_self ..)
    have h2 : esc ∉ a := fun e => h (List.mem_cons_of_mem _ e)
    simp [Spec.stripEscapes, h1, ih h2]

theorem strip_reset (b : Text) : Spec.stripEscapes (resetColor ++ b) = Spec.stripEscapes b := rfl
theorem strip_bold (b : Text) : Spec.stripEscapes (bold ++ b) = Spec.stripEscapes b := rfl
theorem strip_gray (b : Text) : Spec.stripEscapes (foreground gray ++ b) = Spec.stripEscapes b := rfl
theorem strip_levelStyle (bf : Bool) (l : Level) (b : Text) :
    Spec.stripEscapes (levelStyle bf l ++ b) = Spec.stripEscapes b := by
  cases bf <;> cases l <;> rfl
theorem strip_textStyle (l : Level) (b : Text) :
    Spec.stripEscapes (textStyle l ++ b) = Spec.stripEscapes b := by
  cases l <;> rfl

theorem digit_ne_esc (n : Nat) (h : n < 10) : Nat.digitChar n ≠ esc := by
  have : n = 0 ∨ n = 1 ∨ n = 2 ∨ n = 3 ∨ n = 4 ∨ n = 5 ∨ n = 6 ∨ n = 7 ∨ n = 8 ∨ n = 9 := by omega
  rcases this with h | h | h | h | h | h | h | h | h | h <;> subst h <;> decide

theorem fixedDigits_no_esc (k n : Nat) : esc ∉ fixedDigits k n := by
  induction k generalizing n with
  | zero => simp [fixedDigits]
  | succ k ih =>
    simp only [fixedDigits, List.mem_append, List.mem_singleton, not_or]
    exact ⟨ih _, fun h => digit_ne_esc (n % 10) (by omega) h.symm⟩

theorem toDigits_no_esc (n : Nat) : esc ∉ Nat.toDigits 10 n := by
  intro h
  have := Nat.isDigit_of_mem_toDigits (by omega) (by omega) h
  exact absurd this (by decide)

theorem column_no_esc {n : Nat} {s : Text} (h : esc ∉ s) : esc ∉ column n s := by
  simp only [column, List.mem_append, not_or]
  refine ⟨h, fun hm => ?_⟩
  have := List.eq_of_mem_replicate hm
  exact absurd this (by decide)

theorem stamp_no_esc (lt : LocalTime) (sec : Int) : esc ∉ stamp lt sec := by
  have h : ∀ n, esc ∉ fixedDigits 2 n := fixedDigits_no_esc 2
  simp only [stamp, Spec.dateTime, List.mem_append, List.mem_singleton, not_or]
  refine ⟨⟨⟨⟨⟨⟨⟨⟨⟨⟨h _, by decide⟩, h _⟩, by decide⟩, h _⟩, by decide⟩, h _⟩, by decide⟩, h _⟩, by decide⟩, h _⟩

theorem levelName_no_esc (l : Level) : esc ∉ Spec.levelWord l := by cases l <;> decide

theorem threadColumn_no_esc (ti : ThreadInfo) (e : Event) (h : esc ∉ e.threadName) :
    esc ∉ (threadColumn ti e).text := by
  have h1 := column_no_esc (n := 15) h
  have h2 := column_no_esc (n := 6) (toDigits_no_esc e.threadNumber)
  cases ti
  · simp [threadColumn, Spec.ThreadColumn.text]
  · simp only [threadColumn, Spec.ThreadColumn.text, List.mem_append, not_or]
    exact ⟨h1, by decide⟩
  · simp only [threadColumn, Spec.ThreadColumn.text, List.mem_append, not_or]
    exact ⟨⟨by decide, h2⟩, by decide⟩

theorem strip_colored (bf : Bool) (dt : Text) (ti : ThreadInfo) (e : Event) (hd : esc ∉ dt)
    (h1 : esc ∉ e.threadName) (h2 : esc ∉ e.name) (h3 : esc ∉ e.message) :
    Spec.stripEscapes (colored bf dt ti e) = plain dt ti e := by
  have hu := fixedDigits_no_esc 6 (Spec.micros e.timestamp)
  have ht := threadColumn_no_esc ti e h1
  have hl := column_no_esc (n := 8) (levelName_no_esc e.level)
  have hs : esc ∉ ([' ', ' '] : Text) := by decide
  have hn : esc ∉ (['\n'] : Text) := by decide
  have hp : esc ∉ (['.'] : Text) := by decide
  unfold colored plain Spec.record
  simp only [List.append_assoc]
  rw [strip_append hd, strip_gray, strip_append hp, strip_append hu, strip_reset, strip_append hs,
    strip_append ht, strip_levelStyle, strip_append hl, strip_reset, strip_append hs, strip_bold,
    strip_append h2, strip_reset, strip_append hs, strip_textStyle, strip_append h3, strip_reset]
  rfl

/-! ## Reading a record back -/

theorem splitDouble_clean (s rest : Text) (h : Clean s) :
    Spec.splitDouble (s ++ ' ' :: ' ' :: rest) = some (s, rest) := by
  induction s with
  | nil => rfl
  | cons c s ih =>
    have hs : Clean s := by
      refine ⟨fun a b hab => h.1 (c :: a) b (by rw [hab]; rfl), ?_⟩
      intro hl
      apply h.2
      cases s with
      | nil => simp at hl
      | cons d s => rw [List.getLast?_cons_cons]; exact hl
    have hne : ∀ x, c :: (s ++ ' ' :: ' ' :: rest) = ' ' :: ' ' :: x → False := by
      intro x hx
      injection hx with hc hx
      subst hc
      cases s with
      | nil => exact h.2 rfl
      | cons d s =>
        injection hx with hd _
        subst hd
        exact h.1 [] s rfl
    rw [List.cons_append, Spec.splitDouble]
    · rw [ih hs]; rfl
    · intro x h1 h2; exact hne x (by rw [h1, h2])

theorem trimRight_column (n : Nat) (s : Text) (h : s.getLast? ≠ some ' ') :
    Spec.trimRight (column n s) = s := by
  unfold Spec.trimRight column
  rw [List.reverse_append, List.reverse_replicate]
  have : ∀ k (l : Text), (List.replicate k ' ' ++ l).dropWhile (· = ' ') = l.dropWhile (· = ' ') := by
    intro k l; induction k with
    | zero => rfl
    | succ k ih => rw [List.replicate_succ, List.cons_append, List.dropWhile_cons]; simp [ih]
  rw [this]
  have h2 : s.reverse.dropWhile (· = ' ') = s.reverse := by
    rw [← List.head?_reverse] at h
    cases e : s.reverse with
    | nil => rfl
    | cons c l =>
      rw [e] at h
      rw [List.dropWhile_cons]
      have : c ≠ ' ' := by intro hc; subst hc; exact h rfl
      simp [this]
  rw [h2, List.reverse_reverse]

theorem levelName_last (l : Level) : (Spec.levelWord l).getLast? ≠ some ' ' := by cases l <;> decide

theorem skipThread_ok (ti : ThreadInfo) (e : Event) {m : Nat} (hw : WF m e) (rest : Text) :
    Spec.skipThread (modeOf ti) ((threadColumn ti e).text ++ rest) = some rest := by
  cases ti with
  | none => rfl
  | name =>
    have := hw.tname
    simp only [modeOf, Spec.skipThread, threadColumn, Spec.ThreadColumn.text]
    rw [List.drop_left']
    simp [column_length]; omega
  | id =>
    simp only [modeOf, Spec.skipThread, threadColumn, Spec.ThreadColumn.text]
    have hd : ∀ c ∈ Nat.toDigits 10 e.threadNumber, c.isDigit = true := fun c hc =>
      Nat.isDigit_of_mem_toDigits (by omega) (by omega) hc
    generalize Nat.toDigits 10 e.threadNumber = ds at hd
    have h1 : (List.drop 2 (['T', ':'] ++ column 6 ds ++ [' ', ' '] ++ rest)).takeWhile Char.isDigit = ds := by
      simp only [List.append_assoc, List.cons_append, List.nil_append, List.drop_succ_cons, List.drop_zero]
      unfold column
      rw [List.append_assoc, List.takeWhile_append_of_pos hd]
      rcases Nat.eq_zero_or_pos (6 - ds.length) with h | h
      · rw [h]; simp
      · obtain ⟨k, hk⟩ : ∃ k, 6 - ds.length = k + 1 := ⟨6 - ds.length - 1, by omega⟩
        rw [hk, List.replicate_succ]; simp
    rw [h1, List.drop_left']
    simp [column_length]; omega

theorem ofDigitChars_append_one (l : Text) (d acc : Nat) (h : d < 10) :
    Nat.ofDigitChars 10 (l ++ [Nat.digitChar d]) acc = 10 * Nat.ofDigitChars 10 l acc + d := by
  rw [Nat.ofDigitChars_append]
  have : d = 0 ∨ d = 1 ∨ d = 2 ∨ d = 3 ∨ d = 4 ∨ d = 5 ∨ d = 6 ∨ d = 7 ∨ d = 8 ∨ d = 9 := by omega
  rcases this with h | h | h | h | h | h | h | h | h | h <;> subst h <;> rfl

theorem ofDigitChars_fixed (k n : Nat) (h : n < 10 ^ k) : Nat.ofDigitChars 10 (fixedDigits k n) 0 = n := by
  induction k generalizing n with
  | zero => simp at h; subst h; rfl
  | succ k ih =>
    rw [fixedDigits, ofDigitChars_append_one _ _ _ (by omega), ih]
    · omega
    · apply Nat.div_lt_of_lt_mul; rw [Nat.pow_succ] at h; omega

theorem parse_plain (dt : Text) (hd : dt.length = 17) (ti : ThreadInfo) (e : Event) {m : Nat} (hw : WF m e)
    (hn : Clean e.name) :
    Spec.parse (modeOf ti) (plain dt ti e) = some
      { dt := dt, usec := Spec.micros e.timestamp, level := Spec.levelWord e.level, name := e.name,
        message := e.message } := by
  have hf := fixedDigits_length 6 (Spec.micros e.timestamp)
  have hu := (usec_nonneg hw.ts).2
  have hl := levelName_len e.level
  unfold Spec.parse plain Spec.record
  simp only [List.append_assoc]
  have e1 : ∀ r : Text, (dt ++ r).take 17 = dt := fun r => List.take_left' hd
  have e2 : ∀ r : Text, ((dt ++ (['.'] ++ (fixedDigits 6 (Spec.micros e.timestamp) ++ r))).drop 18).take 6 =
      fixedDigits 6 (Spec.micros e.timestamp) := by
    intro r
    rw [← List.append_assoc, List.drop_left' (by simp [hd])]
    exact List.take_left' hf
  have e3 : ∀ r : Text, (dt ++ (['.'] ++ (fixedDigits 6 (Spec.micros e.timestamp) ++ ([' ', ' '] ++ r)))).drop 26 = r := by
    intro r
    rw [← List.append_assoc, ← List.append_assoc, ← List.append_assoc, List.drop_left' (by simp [hd, hf])]
  rw [e1, e2, e3, skipThread_ok ti e hw]
  simp only [Option.bind_some, bind]
  have e4 : ∀ r : Text, (column 8 (Spec.levelWord e.level) ++ r).take 8 = column 8 (Spec.levelWord e.level) := fun r =>
    List.take_left' (by rw [column_length]; omega)
  have e5 : ∀ r : Text, (column 8 (Spec.levelWord e.level) ++ ([' ', ' '] ++ r)).drop 10 = r := by
    intro r; rw [← List.append_assoc, List.drop_left' (by simp [column_length]; omega)]
  rw [e4, e5, trimRight_column _ _ (levelName_last _)]
  show (Spec.splitDouble (e.name ++ ' ' :: ' ' :: (e.message ++ ['\n']))).bind _ = _
  rw [splitDouble_clean _ _ hn, ofDigitChars_fixed _ _ hu]
  simp

/-! ## Syslog -/

/-- the compact record of an event, date-time column given (without the terminating NUL) -/
def compact (dt : Text) (ti : ThreadInfo) (e : Event) : Text :=
  Spec.compactRecord dt (Spec.micros e.timestamp) (syslogThread ti e) (Spec.levelWord e.level) e.name e.message

theorem writes_threadSyslog (ti : ThreadInfo) (e : Event) :
    Writes (fun w => w.threadSyslog ti e) (syslogThread ti e) := by
  cases ti with
  | none => intro w _; simp [W.threadSyslog, syslogThread]
  | name => exact (writes_puts e.threadName).comp writes_sep
  | id => exact (writes_fmt ("T:".toList ++ Nat.toDigits 10 e.threadNumber)).comp writes_sep

theorem syslogRecord_fits (lt : LocalTime) (ti : ThreadInfo) (c : Cache) (w : W) (e : Event) {m : Nat}
    (hw : WF m e)
    (h : w.out.length + (compact (c.update lt (Spec.second e.timestamp)).datetime ti e).length + 1 ≤ w.cap) :
    syslogRecord lt ti c w e =
      ({ w with out := w.out ++ compact (c.update lt (Spec.second e.timestamp)).datetime ti e ++ ['\x00'] },
       c.update lt (Spec.second e.timestamp)) := by
  refine Prod.ext ?_ rfl
  obtain ⟨eu, hu⟩ := usec_nonneg hw.ts
  have key := ((((((((((writes_puts (c.update lt (Spec.second e.timestamp)).datetime).comp
    (writes_fmt (['.'] ++ padZero 6 (decInt (usecOf e.timestamp))))).comp writes_sep).comp
    (writes_threadSyslog ti e)).comp (writes_puts (Spec.levelWord e.level))).comp writes_sep).comp
    (writes_puts e.name)).comp writes_sep).comp (writes_puts e.message)).comp (writes_put '\x00'))
  rw [eu, padZero_eq 6 _ hu (by omega)] at key
  have ea : compact (c.update lt (Spec.second e.timestamp)).datetime ti e ++ ['\x00'] =
      (c.update lt (Spec.second e.timestamp)).datetime ++ (['.'] ++ fixedDigits 6 (Spec.micros e.timestamp)) ++ [' ', ' '] ++
      syslogThread ti e ++ Spec.levelWord e.level ++ [' ', ' '] ++ e.name ++ [' ', ' '] ++ e.message ++ ['\x00'] := by
    simp [compact, Spec.compactRecord]
  have e1 := key w (by rw [← ea]; simp only [List.length_append, List.length_cons, List.length_nil]; omega)
  unfold syslogRecord
  rw [eu, padZero_eq 6 _ hu (by omega)]
  simp only [W.levelShort_eq]
  simp only [List.append_assoc] at ea e1 ⊢
  rw [ea]
  exact e1

theorem syslogThread_len {ti : ThreadInfo} {e : Event} {m : Nat} (h : WF m e) :
    (syslogThread ti e).length ≤ 24 := by
  have := digits_len_le20 h.tnum
  have := h.tname
  cases ti <;> simp [syslogThread] <;> omega

theorem compact_length_le (dt : Text) (ti : ThreadInfo) (e : Event) {m : Nat} (hw : WF m e) (hd : dt.length = 17) :
    (compact dt ti e).length ≤ 94 + m := by
  have := levelName_len e.level
  have := syslogThread_len (ti := ti) hw
  have := hw.name
  have := hw.msg
  simp [compact, Spec.compactRecord, hd, fixedDigits_length]
  omega

/-- 17 NULs become the stamp of the first second that is not 0. -/
theorem Cache.init_length : Cache.init.datetime.length = 17 := by simp [Cache.init]

/-! ## What the constructor of an event guarantees -/

theorem take_takeWhile_noNul (s : Text) (n : Nat) : '\x00' ∉ s.take (strnlen s n) := by
  unfold strnlen
  induction s generalizing n with
  | nil => simp
  | cons c s ih =>
    cases n with
    | zero => simp
    | succ n =>
      by_cases hc : c = '\x00'
      · subst hc; simp
      · have hc' : '\x00' ≠ c := fun h => hc h.symm
        have := ih n
        simpa [hc, hc'] using this

theorem mkEvent_wf (env : Env) (ti : ThreadInfo) (maxLen : Nat) (m : Msg) (h1 : 0 ≤ env.now)
    (h2 : env.threadNumber < 2 ^ 64) : WF maxLen (mkEvent env ti maxLen m) := by
  have hlen : strnlen env.threadName 15 ≤ 15 := by
    unfold strnlen
    have := (List.takeWhile_sublist (p := (· ≠ '\x00')) (l := env.threadName.take 15)).length_le
    have h3 := List.length_take_le 15 env.threadName
    omega
  constructor
  · exact h1
  · unfold mkEvent; cases m.fmt <;> simp <;> omega
  · unfold mkEvent; cases m.fmt <;> simp <;> omega
  · unfold mkEvent; cases ti <;> simp; omega
  · unfold mkEvent; cases ti
    · simp
    · exact take_takeWhile_noNul _ _
    · simp
  · unfold mkEvent; cases ti
    · simp
    · exact h2
    · exact h2

theorem ownText_eq (lt : LocalTime) (ti : ThreadInfo) (e : Event) : Sink.ownText lt ti e = compact (stamp lt (Spec.second e.timestamp)) ti e := rfl

end Render
end Soralog
