import Verif.Proofs.Render
import Verif.Model.Layout
/-! # C06–C12: storage layout, event construction, rendering -/
namespace Soralog

/-! ## C06 -/
namespace Layout

theorem roundUp_spec (n a : Nat) (ha : 0 < a) : n ≤ roundUp n a ∧ roundUp n a < n + a ∧ a ∣ roundUp n a := by
  unfold roundUp
  have h1 := Nat.div_add_mod (n + a - 1) a
  have h2 := Nat.mod_lt (n + a - 1) ha
  rw [Nat.mul_comm] at h1
  exact ⟨by omega, by omega, Nat.dvd_mul_left ..⟩

theorem roundUp_of_dvd {n a : Nat} (ha : 0 < a) (h : a ∣ n) : roundUp n a = n := by
  obtain ⟨k, rfl⟩ := h
  obtain ⟨h1, h2, ⟨m, hm⟩⟩ := roundUp_spec (a * k) a ha
  rw [hm] at h1 h2 ⊢
  have : k ≤ m := Nat.le_of_mul_le_mul_left h1 ha
  have : m < k + 1 := Nat.lt_of_mul_lt_mul_left (a := a) (by rw [Nat.mul_add]; omega)
  congr 1; omega

theorem itemOffset_eq {al : Nat} (ha : 0 < al) : itemOffset al = al := by
  unfold itemOffset
  obtain ⟨h1, h2, ⟨m, hm⟩⟩ := roundUp_spec 1 al ha
  rw [hm] at h1 h2 ⊢
  have : m = 1 := by
    rcases Nat.lt_trichotomy m 1 with h | h | h
    · have : m = 0 := by omega
      subst this; simp at h1
    · exact h
    · exfalso
      have : al * 2 ≤ al * m := Nat.mul_le_mul_left _ h
      omega
  rw [this, Nat.mul_one]

theorem nodeAlign_eq {sz al : Nat} (ha : 0 < al) : nodeAlign sz al = al := by
  simp [nodeAlign, maxAlign, nodeMembers]; omega

theorem nodeSize_eq {sz al : Nat} (ha : 0 < al) (hd : al ∣ sz) : nodeSize sz al = al + sz := by
  have h := nodeAlign_eq (sz := sz) ha
  unfold nodeSize sizeOf
  rw [show maxAlign (nodeMembers sz al) = al from h]
  have : (place 0 (nodeMembers sz al)).2 = al + sz := by
    show roundUp (roundUp 0 1 + 1) al + sz = _
    have e : roundUp 0 1 + 1 = 1 := rfl
    rw [e]
    exact congrArg (· + sz) (itemOffset_eq ha)
  rw [this]
  exact roundUp_of_dvd ha (Nat.dvd_add (Nat.dvd_refl _) hd)

/-- Without wrap-around the element size is node size plus padding rounded up. -/
theorem elementSize_spec {sz al pad : Nat} (ha : 0 < al) (hd : al ∣ sz)
    (h64 : al + sz + pad + al < 2 ^ 64) :
    al + sz + pad ≤ elementSize sz al pad ∧ elementSize sz al pad < al + sz + pad + al ∧
      al ∣ elementSize sz al pad := by
  unfold elementSize
  rw [nodeAlign_eq ha, nodeSize_eq ha hd]
  have hm := Nat.mod_lt pad ha
  have hdm := Nat.div_add_mod pad al
  by_cases h : pad % al = 0
  · simp only [h, ne_eq, not_true_eq_false, if_false]
    have : wrap64 (al + sz + pad) = al + sz + pad := Nat.mod_eq_of_lt (by omega)
    rw [this]
    refine ⟨by omega, by omega, ?_⟩
    exact Nat.dvd_add (Nat.dvd_add (Nat.dvd_refl _) hd) (Nat.dvd_of_mod_eq_zero h)
  · simp only [ne_eq, h, not_false_eq_true, if_true]
    have e1 : wrap64 (pad + (al - pad % al)) = pad + (al - pad % al) := Nat.mod_eq_of_lt (by omega)
    rw [e1]
    have e2 : wrap64 (al + sz + (pad + (al - pad % al))) = al + sz + (pad + (al - pad % al)) :=
      Nat.mod_eq_of_lt (by omega)
    rw [e2]
    refine ⟨by omega, by omega, ?_⟩
    have : pad + (al - pad % al) = al * (pad / al + 1) := by rw [Nat.mul_add]; omega
    rw [this]
    exact Nat.dvd_add (Nat.dvd_add (Nat.dvd_refl _) hd) (Nat.dvd_mul_right ..)

/-- **C06** for any element type of size `sz` and alignment `al` (as C++ requires, `al ∣ sz`).  As long as the
total number of bytes asked for is representable in `size_t`, the element of slot `i` is aligned, the element
and the `pad` bytes that follow it lie inside the allocation, and they end before the next slots begin. -/
theorem C06_slots (sz al cap pad : Nat) (ha : 0 < al) (hd : al ∣ sz)
    (h64 : al + sz + pad + al < 2 ^ 64) (htot : cap * (al + sz + pad + al) < 2 ^ 64) (i : Nat) (hi : i < cap) :
    al ∣ itemAt sz al pad i ∧
    slotOffset sz al pad i < itemAt sz al pad i ∧
    messageAt sz al pad i = itemAt sz al pad i + sz ∧
    messageAt sz al pad i + pad ≤ rawSize sz al cap pad ∧
    ∀ j, i < j → j < cap → messageAt sz al pad i + pad ≤ slotOffset sz al pad j := by
  obtain ⟨h1, h2, h3⟩ := elementSize_spec ha hd h64
  generalize hE : elementSize sz al pad = E at h1 h2 h3
  have hmul : ∀ k, k ≤ cap → E * k < 2 ^ 64 := by
    intro k hk
    have : E * k ≤ E * cap := Nat.mul_le_mul_left _ hk
    have : E * cap ≤ (al + sz + pad + al) * cap := Nat.mul_le_mul_right _ (by omega)
    rw [Nat.mul_comm (al + sz + pad + al) cap] at this
    omega
  have hs : ∀ k, k ≤ cap → slotOffset sz al pad k = E * k := by
    intro k hk; unfold slotOffset; rw [hE]; exact Nat.mod_eq_of_lt (hmul k hk)
  have hraw : rawSize sz al cap pad = E * cap := by
    unfold rawSize; rw [hE, Nat.mul_comm]; exact Nat.mod_eq_of_lt (hmul cap (Nat.le_refl _))
  have hitem : itemAt sz al pad i = E * i + al := by
    unfold itemAt; rw [hs i (by omega), itemOffset_eq ha]
  have hsucc : ∀ j, i < j → E * i + E ≤ E * j := by
    intro j hj
    have : E * (i + 1) ≤ E * j := Nat.mul_le_mul_left _ hj
    rwa [Nat.mul_add, Nat.mul_one] at this
  refine ⟨?_, ?_, rfl, ?_, ?_⟩
  · rw [hitem]
    exact Nat.dvd_add (Nat.dvd_trans h3 (Nat.dvd_mul_right ..)) (Nat.dvd_refl _)
  · rw [hs i (by omega), hitem]; omega
  · rw [hraw]
    unfold messageAt; rw [hitem]
    have := hsucc cap hi
    omega
  · intro j hij hj
    unfold messageAt
    rw [hs j (by omega), hitem]
    have := hsucc j hij
    omega

/-- The layout of `Event` meets the hypotheses: 104 bytes, alignment 8. -/
theorem C06_event_layout : eventSize = 104 ∧ eventAlign = 8 ∧ eventAlign ∣ eventSize ∧
    (place 0 eventMembers).1 = [0, 8, 16, 32, 40, 72, 80, 88, 96] := by decide

/-- **C06** for the sinks: slots of `CircularBuffer<Event>` with room for messages of up to `maxLen`. -/
theorem C06_event_slots (cap maxLen : Nat) (htot : cap * (120 + maxLen) < 2 ^ 64) (hm : maxLen < 2 ^ 63)
    (i : Nat) (hi : i < cap) :
    messageAt eventSize eventAlign maxLen i + maxLen ≤ rawSize eventSize eventAlign cap maxLen ∧
    ∀ j, i < j → j < cap →
      messageAt eventSize eventAlign maxLen i + maxLen ≤ slotOffset eventSize eventAlign maxLen j := by
  have he : eventSize = 104 ∧ eventAlign = 8 := by decide
  rw [he.1, he.2]
  obtain ⟨_, _, _, h1, h2⟩ := C06_slots 104 8 cap maxLen (by omega) (by decide) (by omega)
    (by rw [show 8 + 104 + maxLen + 8 = 120 + maxLen by omega]; exact htot) i hi
  exact ⟨h1, h2⟩

/-- non-trivial instance: the console defaults (64 events of 1024) -/
example : rawSize eventSize eventAlign 64 1024 = 72704 ∧ 64 * (120 + 1024) < 2 ^ 64 := by decide
/-- an odd message length, so that padding is really rounded -/
example : elementSize 104 8 65 = 184 ∧ messageAt 104 8 65 1 + 65 ≤ slotOffset 104 8 65 2 := by decide

/-- Where the property stops: a capacity whose byte size does not fit in `size_t` (only the constructor called
directly can ask for it) gets an allocation that does not contain its slots. -/
theorem C06_wraparound_refuted : ∃ cap maxLen i, i < cap ∧
    rawSize eventSize eventAlign cap maxLen < messageAt eventSize eventAlign maxLen i + maxLen :=
  ⟨2 ^ 60, 0, 0, by decide, by decide⟩

end Layout

/-! ## C07, C08 -/
namespace Render

/-- **C07**.  When formatting succeeds, the stored message is the formatted text cut to the limit, the name the
given name cut to 32, and the level, time and thread number the given ones; the thread name is the part of the
thread's name before the first NUL, at most 15 characters, in NAME mode and empty otherwise. -/
theorem C07_event_text (env : Env) (ti : ThreadInfo) (maxLen : Nat) (name format text : Text) (level : Level) :
    let e := mkEvent env ti maxLen { name, level, format, fmt := .ok text }
    e.message = text.take maxLen ∧ e.message.length ≤ maxLen ∧
    (text.length ≤ maxLen → e.message = text) ∧
    e.name = name.take 32 ∧ e.level = level ∧ e.timestamp = env.now ∧
    e.threadNumber = (if ti = .none then 0 else env.threadNumber) ∧
    e.threadName = (if ti = .name then (env.threadName.take 15).takeWhile (· ≠ '\x00') else []) ∧
    e.threadName.length ≤ 15 := by
  have hmsg : (text.take maxLen).take (min maxLen text.length) = text.take maxLen := by
    rw [List.take_take]
    rcases Nat.le_total maxLen text.length with h | h
    · congr 1; omega
    · rw [Nat.min_eq_right h, Nat.min_eq_left h, List.take_length, List.take_of_length_le h]
  have htn : ∀ s : Text, s.take (strnlen s 15) = (s.take 15).takeWhile (· ≠ '\x00') := by
    intro s
    unfold strnlen
    generalize 15 = n
    induction s generalizing n with
    | nil => simp
    | cons c s ih =>
      cases n with
      | zero => simp
      | succ n =>
        by_cases hc : c = '\x00'
        · subst hc; simp
        · simpa [hc] using ih n
  have hlen : ((env.threadName.take 15).takeWhile (· ≠ '\x00')).length ≤ 15 := by
    have := (List.takeWhile_sublist (p := (· ≠ '\x00')) (l := env.threadName.take 15)).length_le
    have h3 := List.length_take_le 15 env.threadName
    omega
  refine ⟨hmsg, ?_, ?_, ?_, rfl, rfl, ?_, ?_, ?_⟩
  · show ((text.take maxLen).take (min maxLen text.length)).length ≤ maxLen
    rw [hmsg]; exact List.length_take_le ..
  · intro h
    show (text.take maxLen).take (min maxLen text.length) = text
    rw [hmsg, List.take_of_length_le h]
  · show name.take (min name.length 32) = name.take 32
    rcases Nat.le_total name.length 32 with h | h
    · rw [Nat.min_eq_left h, List.take_length, List.take_of_length_le h]
    · rw [Nat.min_eq_right h]
  · cases ti <;> rfl
  · cases ti
    · rfl
    · exact htn env.threadName
    · rfl
  · cases ti
    · simp [mkEvent]
    · show (env.threadName.take (strnlen env.threadName 15)).length ≤ 15
      rw [htn]; exact hlen
    · simp [mkEvent]

/-- a truncating instance and a non-truncating one -/
example : (mkEvent ⟨5, 3, "worker".toList ++ ['\x00', 'x']⟩ .name 4
    ⟨"net".toList, .info, "{}".toList, .ok "abcdef".toList⟩).message = "abcd".toList ∧
  (mkEvent ⟨5, 3, "worker".toList ++ ['\x00', 'x']⟩ .name 4
    ⟨"net".toList, .info, "{}".toList, .ok "abcdef".toList⟩).threadName = "worker".toList := by decide

/-- **C08**.  When formatting throws, the event is still constructed, with logger name `Soralog`, level ERROR and
the (cut) text `Format error: <what>; Format: <format>`, whatever name and level were asked for. -/
theorem C08_format_failure (env : Env) (ti : ThreadInfo) (maxLen : Nat) (name format what : Text) (level : Level) :
    let e := mkEvent env ti maxLen { name, level, format, fmt := .error what }
    e.name = "Soralog".toList ∧ e.level = .error ∧
    e.message = ("Format error: ".toList ++ what ++ "; Format: ".toList ++ format).take maxLen ∧
    e.timestamp = env.now := by
  refine ⟨rfl, rfl, ?_, rfl⟩
  show ((formatErrorText what format).take maxLen).take (min maxLen (formatErrorText what format).length) =
    (formatErrorText what format).take maxLen
  rw [List.take_take]
  rcases Nat.le_total maxLen (formatErrorText what format).length with h | h
  · congr 1; omega
  · rw [Nat.min_eq_right h, Nat.min_eq_left h, List.take_length, List.take_of_length_le h]

/-! ## C09 -/

/-- an empty staging buffer -/
def fresh (cap : Nat) : W := { cap, out := [], overflow := false }

theorem room (requested maxLen : Nat) (h : 321 ≤ requested ∨ 161 ≤ maxLen) : 161 + maxLen ≤ bufferSize requested maxLen := by
  unfold bufferSize; split <;> omega

theorem plain_length_le (dt : Text) (ti : ThreadInfo) (e : Event) {m : Nat} (hw : WF m e) (hd : dt.length = 17) :
    (plain dt ti e).length ≤ 95 + m := by
  rw [plain_length _ _ _ hd]
  have := threadColumn_len (ti := ti) hw
  have := hw.name
  have := hw.msg
  omega

theorem colored_length_le (bf : Bool) (dt : Text) (ti : ThreadInfo) (e : Event) {m : Nat} (hw : WF m e)
    (hd : dt.length = 17) : (colored bf dt ti e).length ≤ 161 + m := by
  rw [colored_length _ _ _ _ hd]
  have := threadColumn_len (ti := ti) hw
  have := hw.name
  have := hw.msg
  have := levelStyle_len bf e.level
  have := textStyle_len e.level
  omega

/-- **C09**.  On every sink whose requested buffer is at least 321 bytes (the configurator demands four events,
`4 * sizeof(Event) = 416`; the defaults 2^17 and 2^22 satisfy it too) or whose message limit is at least 161 bytes
(the constructor then enlarges the buffer enough by itself), for any thread-info mode, with or without colour, rendering any event that the sink can hold never writes outside the
staging buffer and keeps the record complete. -/
theorem C09_records_fit (lt : LocalTime) (requested maxLen : Nat) (hreq : 321 ≤ requested ∨ 161 ≤ maxLen)
    (ti : ThreadInfo) (color boldFirst : Bool) (env : Env) (m : Msg)
    (henv : 0 ≤ env.now) (hnum : env.threadNumber < 2 ^ 64) :
    let e := mkEvent env ti maxLen m
    let cap := bufferSize requested maxLen
    let w := (consoleRecord lt ti color boldFirst Cache.init (fresh cap) e).1
    let w' := (fileRecord lt ti Cache.init (fresh cap) e).1
    (w.overflow = false ∧ w.out.length ≤ cap ∧ w.out.getLast? = some '\n') ∧
    (w'.overflow = false ∧ w'.out.length ≤ cap ∧ w'.out.getLast? = some '\n') := by
  intro e cap
  have hw := mkEvent_wf env ti maxLen m henv hnum
  have hroom := room requested maxLen hreq
  have hd := Cache.update_length lt Cache.init (Spec.second e.timestamp) Cache.init_length
  have hp := plain_length_le _ ti e hw hd
  have hcl := colored_length_le boldFirst _ ti e hw hd
  have hf := fileRecord_fits lt ti Cache.init (fresh cap) e hw
    (by show 0 + _ ≤ cap; show 0 + _ ≤ bufferSize requested maxLen; omega)
  have hplain : ∀ dt, (plain dt ti e).getLast? = some '\n' := by
    intro dt; exact List.getLast?_concat
  have hcol : ∀ dt, (colored boldFirst dt ti e).getLast? = some '\n' := by
    intro dt; exact List.getLast?_concat
  have hfile : ((fileRecord lt ti Cache.init (fresh cap) e).1.overflow = false ∧
      (fileRecord lt ti Cache.init (fresh cap) e).1.out.length ≤ cap ∧
      (fileRecord lt ti Cache.init (fresh cap) e).1.out.getLast? = some '\n') := by
    rw [hf]
    refine ⟨rfl, ?_, ?_⟩
    · show ([] ++ _ : Text).length ≤ bufferSize requested maxLen
      rw [List.nil_append]; omega
    · show ([] ++ _ : Text).getLast? = _
      rw [List.nil_append]; exact hplain _
  refine ⟨?_, hfile⟩
  cases color with
  | false => rw [consoleRecord_plain]; exact hfile
  | true =>
    rw [consoleRecord_fits lt ti boldFirst Cache.init (fresh cap) e hw
      (by show 0 + _ ≤ bufferSize requested maxLen; omega)]
    refine ⟨rfl, ?_, ?_⟩
    · show ([] ++ _ : Text).length ≤ bufferSize requested maxLen
      rw [List.nil_append]; omega
    · show ([] ++ _ : Text).getLast? = _
      rw [List.nil_append]; exact hcol _

/-- The bound is exactly what is needed: with one byte less (requested buffer 320, message limit 160) there is an
event -- 20-digit thread number, 32-character name, 160-character message, CRITICAL, coloured -- whose record is
written outside the staging buffer. -/
theorem C09_bound_tight :
    (consoleRecord (fun _ => ⟨24, 1, 2, 3, 4, 5⟩) .id true false Cache.init (fresh (bufferSize 320 160))
      (mkEvent ⟨1700000000000000000, 2 ^ 64 - 1, []⟩ .id 160
        ⟨List.replicate 32 'n', .critical, [], .ok (List.replicate 160 'm')⟩)).1.overflow = true := by
  decide +kernel

/-- A sink constructed directly (not through the configurator) with a small message limit and the buffer left to
the auto-fix can overflow: limit 64, buffer auto-fixed to 128. -/
theorem C09_unchecked_constructor_overflows :
    (fileRecord (fun _ => ⟨24, 1, 2, 3, 4, 5⟩) .none Cache.init (fresh (bufferSize 0 64))
      (mkEvent ⟨1700000000000000000, 1, []⟩ .none 64
        ⟨List.replicate 32 'n', .info, [], .ok (List.replicate 64 'm')⟩)).1.overflow = true := by
  decide +kernel

/-! ## C10 -/

/-- **C10**, layout.  For every event of a sink (its second not the epoch's second 0, see C12) the record written
by the file sink, and by the console sink without colour, is exactly the specified one. -/
theorem C10_layout (lt : LocalTime) (hlt : ∀ s, (lt s).Ok) (requested maxLen : Nat) (hreq : 321 ≤ requested ∨ 161 ≤ maxLen)
    (ti : ThreadInfo) (bf : Bool) (env : Env) (m : Msg) (henv : 0 ≤ env.now) (hnum : env.threadNumber < 2 ^ 64)
    (hsec : Spec.second env.now ≠ 0) :
    let e := mkEvent env ti maxLen m
    let cap := bufferSize requested maxLen
    let t := lt (Spec.second env.now)
    let rec_ := Spec.record (Spec.dateTime t.year t.mon t.mday t.hour t.min t.sec)
      (Spec.micros env.now) (threadColumn ti e) (Spec.levelWord e.level) e.name e.message
    (fileRecord lt ti Cache.init (fresh cap) e).1.out = rec_ ∧
    (consoleRecord lt ti false bf Cache.init (fresh cap) e).1.out = rec_ := by
  intro e cap t rec_
  have hw := mkEvent_wf env ti maxLen m henv hnum
  have hroom := room requested maxLen hreq
  have hd := Cache.update_length lt Cache.init (Spec.second e.timestamp) Cache.init_length
  have hp := plain_length_le _ ti e hw hd
  have hf := fileRecord_fits lt ti Cache.init (fresh cap) e hw
    (by show 0 + _ ≤ bufferSize requested maxLen; omega)
  have hg := Cache.update_good lt hlt Cache.init (Spec.second e.timestamp) Cache.init_length (Or.inr (Ne.symm hsec))
  have hdt : (Cache.init.update lt (Spec.second e.timestamp)).datetime = stamp lt (Spec.second env.now) := by
    rw [show (Cache.init.update lt (Spec.second e.timestamp)).datetime = stamp lt _ from hg.1, hg.2]; rfl
  have : (fileRecord lt ti Cache.init (fresh cap) e).1.out = rec_ := by
    rw [hf]
    show ([] ++ _ : Text) = _
    rw [List.nil_append, hdt]; rfl
  exact ⟨this, by rw [consoleRecord_plain]; exact this⟩

/-- **C10**, from the call to the record: a formatted message pushed under a logger name and a level is written with the local time and
the microseconds of the moment of the push, the word of that level, that name (cut to 32) and that text (cut to the limit). -/
theorem C10_record_of_call (lt : LocalTime) (hlt : ∀ s, (lt s).Ok) (requested maxLen : Nat) (hreq : 321 ≤ requested ∨ 161 ≤ maxLen)
    (ti : ThreadInfo) (bf : Bool) (env : Env) (name format text : Text) (level : Level) (henv : 0 ≤ env.now)
    (hnum : env.threadNumber < 2 ^ 64) (hsec : Spec.second env.now ≠ 0) :
    let e := mkEvent env ti maxLen { name, level, format, fmt := .ok text }
    let cap := bufferSize requested maxLen
    let t := lt (Spec.second env.now)
    let rec_ := Spec.record (Spec.dateTime t.year t.mon t.mday t.hour t.min t.sec)
      (Spec.micros env.now) (threadColumn ti e) (Spec.levelWord level) (name.take 32) (text.take maxLen)
    (fileRecord lt ti Cache.init (fresh cap) e).1.out = rec_ ∧
    (consoleRecord lt ti false bf Cache.init (fresh cap) e).1.out = rec_ := by
  have h := C10_layout lt hlt requested maxLen hreq ti bf env { name, level, format, fmt := .ok text } henv hnum hsec
  have h7 := C07_event_text env ti maxLen name format text level
  dsimp only at h h7 ⊢
  rw [h7.1, h7.2.2.2.1, h7.2.2.2.2.1] at h
  exact h

/-- the thread column of `C10_layout`, spelled out -/
theorem C10_thread_column (env : Env) (maxLen : Nat) (m : Msg) :
    (threadColumn .none (mkEvent env .none maxLen m)).text = [] ∧
    (threadColumn .name (mkEvent env .name maxLen m)).text =
      Spec.column 15 (env.threadName.take (strnlen env.threadName 15)) ++ [' ', ' '] ∧
    (threadColumn .id (mkEvent env .id maxLen m)).text =
      ['T', ':'] ++ Spec.column 6 (Nat.toDigits 10 env.threadNumber) ++ [' ', ' '] := ⟨rfl, rfl, rfl⟩

/-- **C10**, invertibility.  Date-time text, microseconds, level name, logger name and message can be read back
from the record that was written, whatever the thread column, if the name has no double space and does not end in a
space. -/
theorem C10_invertible (lt : LocalTime) (hlt : ∀ s, (lt s).Ok) (requested maxLen : Nat) (hreq : 321 ≤ requested ∨ 161 ≤ maxLen)
    (ti : ThreadInfo) (bf : Bool) (env : Env) (m : Msg) (henv : 0 ≤ env.now) (hnum : env.threadNumber < 2 ^ 64)
    (hsec : Spec.second env.now ≠ 0) :
    let e := mkEvent env ti maxLen m
    let cap := bufferSize requested maxLen
    let t := lt (Spec.second env.now)
    let expected : Spec.Parsed := ⟨Spec.dateTime t.year t.mon t.mday t.hour t.min t.sec,
      (Spec.micros env.now), Spec.levelWord e.level, e.name, e.message⟩
    Clean e.name →
    Spec.parse (modeOf ti) (fileRecord lt ti Cache.init (fresh cap) e).1.out = some expected ∧
    Spec.parse (modeOf ti) (consoleRecord lt ti false bf Cache.init (fresh cap) e).1.out = some expected := by
  intro e cap t expected hn
  obtain ⟨h1, h2⟩ := C10_layout lt hlt requested maxLen hreq ti bf env m henv hnum hsec
  have hp := parse_plain (stamp lt (Spec.second env.now)) (stamp_length _ _) ti e (mkEvent_wf env ti maxLen m henv hnum) hn
  exact ⟨by rw [h1]; exact hp, by rw [h2]; exact hp⟩

/-- level names are distinct, so the level itself is determined by its name -/
theorem C10_level_determined (a b : Level) (h : Spec.levelWord a = Spec.levelWord b) : a = b := by
  revert h; cases a <;> cases b <;> decide

/-- Why names ending in a space are excluded: two different events with the same record. -/
theorem C10_trailing_space_ambiguous : ∃ n m n' m' : Text, n ≠ n' ∧
    ∀ dt u th l, Spec.record dt u th l n m = Spec.record dt u th l n' m' :=
  ⟨['a', ' '], ['m'], ['a'], [' ', 'm'], by decide, fun dt u th l => by simp [Spec.record]⟩

example : Clean "peer manager".toList := by
  refine ⟨?_, by decide⟩
  intro a b h
  have : ∀ a b : Text, ("peer manager".toList : Text) = a ++ ' ' :: ' ' :: b → False := by
    intro a b h
    have hs : Spec.splitDouble ("peer manager".toList) = none := by decide
    have : ∀ a : Text, Spec.splitDouble (a ++ ' ' :: ' ' :: b) ≠ none := by
      intro a
      induction a with
      | nil => simp [Spec.splitDouble]
      | cons c a ih =>
        intro hn
        by_cases hh : ∃ x, c :: (a ++ ' ' :: ' ' :: b) = ' ' :: ' ' :: x
        · obtain ⟨x, hx⟩ := hh
          rw [List.cons_append, hx] at hn
          simp [Spec.splitDouble] at hn
        · rw [List.cons_append, Spec.splitDouble] at hn
          · exact ih (by simpa using hn)
          · intro x h1 h2; exact hh ⟨x, by rw [h1, h2]⟩
    exact this a (h ▸ hs)
  exact this a b h

/-- a parsed concrete record -/
example : Spec.parse .numbered
    (plain "24.01.02 03:04:05".toList .id ⟨1700000000123456789, 42, [], "net".toList, .warn, "hi  there".toList⟩) =
    some ⟨"24.01.02 03:04:05".toList, 123456, "Warning".toList, "net".toList, "hi  there".toList⟩ := by
  decide +kernel

/-! ## C11 -/

/-- **C11**.  Removing the escape sequences from the coloured console record gives exactly the record the same
sink writes without colour, for every event whose texts contain no ESC. -/
theorem C11_color_only_escapes (lt : LocalTime) (hlt : ∀ s, (lt s).Ok) (requested maxLen : Nat)
    (hreq : 321 ≤ requested ∨ 161 ≤ maxLen) (ti : ThreadInfo) (bf : Bool) (env : Env) (m : Msg) (henv : 0 ≤ env.now)
    (hnum : env.threadNumber < 2 ^ 64) :
    let e := mkEvent env ti maxLen m
    let cap := bufferSize requested maxLen
    esc ∉ e.threadName → esc ∉ e.name → esc ∉ e.message →
    Spec.stripEscapes (consoleRecord lt ti true bf Cache.init (fresh cap) e).1.out =
      (consoleRecord lt ti false bf Cache.init (fresh cap) e).1.out := by
  intro e cap h1 h2 h3
  have hw := mkEvent_wf env ti maxLen m henv hnum
  have hroom := room requested maxLen hreq
  have hd := Cache.update_length lt Cache.init (Spec.second e.timestamp) Cache.init_length
  have hp := plain_length_le _ ti e hw hd
  have hcl := colored_length_le bf _ ti e hw hd
  rw [consoleRecord_plain, fileRecord_fits lt ti Cache.init (fresh cap) e hw
    (by show 0 + _ ≤ bufferSize requested maxLen; omega),
    consoleRecord_fits lt ti bf Cache.init (fresh cap) e hw (by show 0 + _ ≤ bufferSize requested maxLen; omega)]
  show Spec.stripEscapes ([] ++ _) = [] ++ _
  rw [List.nil_append, List.nil_append]
  apply strip_colored _ _ _ _ _ h1 h2 h3
  by_cases hs : Spec.second e.timestamp = 0
  · have : Cache.init.update lt (Spec.second e.timestamp) = Cache.init := by
      unfold Cache.update; rw [hs]; rfl
    rw [this]; decide
  · have hg := Cache.update_good lt hlt Cache.init (Spec.second e.timestamp) Cache.init_length
      (Or.inr (Ne.symm hs))
    rw [show (Cache.init.update lt (Spec.second e.timestamp)).datetime = stamp lt _ from hg.1]
    exact stamp_no_esc _ _

/-- an instance in which the coloured record really differs -/
example : Spec.stripEscapes (colored true "24.01.02 03:04:05".toList .none
      ⟨1700000000123456789, 0, [], "net".toList, .debug, "hi".toList⟩) =
    "24.01.02 03:04:05.123456  Debug     net  hi\n".toList := by decide +kernel

/-! ## C12 -/

/-- the first 17 characters of the records that one flush writes for the events `es`: `record` renders one event, given the date-time text
left by the event before, and leaves the date-time text for the next one -/
def printed (record : Cache → Event → W × Cache) : Cache → List Event → List Text
  | _, [] => []
  | c, e :: es => (record c e).1.out.take 17 :: printed record (record c e).2 es

/-- the local times of the events, as C10 prints them -/
def ownTimes (lt : LocalTime) (es : List Event) : List Text := es.map fun e =>
  let t := lt (Spec.second e.timestamp)
  Spec.dateTime t.year t.mon t.mday t.hour t.min t.sec

/-- the four renderings, each into an empty buffer of `cap` bytes -/
inductive Renders (lt : LocalTime) (ti : ThreadInfo) (cap : Nat) : (Cache → Event → W × Cache) → Prop
  | file : Renders lt ti cap fun c e => fileRecord lt ti c (fresh cap) e
  | console (color boldFirst : Bool) : Renders lt ti cap fun c e => consoleRecord lt ti color boldFirst c (fresh cap) e
  | syslog : Renders lt ti cap fun c e => syslogRecord lt ti c (fresh cap) e

/-- a `second` is the second: for moments after the epoch, the number of whole seconds -/
theorem second_spec {ts : Int} (h : 0 ≤ ts) :
    Spec.second ts * 1000000000 ≤ ts ∧ ts < (Spec.second ts + 1) * 1000000000 ∧
    Spec.second ts * 1000000000 + Spec.micros ts * 1000 ≤ ts ∧ ts < Spec.second ts * 1000000000 + Spec.micros ts * 1000 + 1000 := by
  unfold Spec.second Spec.micros
  rw [Int.tdiv_eq_ediv_of_nonneg h]
  omega

theorem renders_head {lt : LocalTime} {ti : ThreadInfo} {cap : Nat} {r : Cache → Event → W × Cache} (hr : Renders lt ti cap r) (c : Cache)
    (e : Event) {m : Nat} (hw : WF m e) (hc : c.datetime.length = 17) (hcap : 161 + m ≤ cap) :
    (r c e).1.out.take 17 = (c.update lt (Spec.second e.timestamp)).datetime ∧ (r c e).2 = c.update lt (Spec.second e.timestamp) := by
  have hd := Cache.update_length lt c (Spec.second e.timestamp) hc
  have hp := plain_length_le _ ti e hw hd
  have hq := compact_length_le _ ti e hw hd
  have hf : (fileRecord lt ti c (fresh cap) e).1.out.take 17 = (c.update lt (Spec.second e.timestamp)).datetime := by
    rw [fileRecord_fits lt ti c (fresh cap) e hw (by show 0 + _ ≤ cap; omega)]
    show ([] ++ _ : Text).take 17 = _
    rw [List.nil_append, plain, Spec.record]
    simp only [List.append_assoc]
    exact List.take_left' hd
  cases hr with
  | file => exact ⟨hf, rfl⟩
  | console color bf =>
    cases color with
    | false => dsimp only; rw [consoleRecord_plain]; exact ⟨hf, rfl⟩
    | true =>
      refine ⟨?_, rfl⟩
      have hl := colored_length_le bf _ ti e hw hd
      show (consoleRecord lt ti true bf c (fresh cap) e).1.out.take 17 = _
      rw [consoleRecord_fits lt ti bf c (fresh cap) e hw (by show 0 + _ ≤ cap; omega)]
      show ([] ++ _ : Text).take 17 = _
      rw [List.nil_append, colored]
      simp only [List.append_assoc]
      exact List.take_left' hd
  | syslog =>
    refine ⟨?_, rfl⟩
    show (syslogRecord lt ti c (fresh cap) e).1.out.take 17 = _
    rw [syslogRecord_fits lt ti c (fresh cap) e hw (by show 0 + _ + 1 ≤ cap; omega)]
    show ([] ++ _ ++ _ : Text).take 17 = _
    rw [List.nil_append, compact, Spec.compactRecord]
    simp only [List.append_assoc]
    exact List.take_left' hd

theorem printed_good {lt : LocalTime} (hlt : ∀ s, (lt s).Ok) {ti : ThreadInfo} {cap m : Nat} (hcap : 161 + m ≤ cap)
    {r : Cache → Event → W × Cache} (hr : Renders lt ti cap r) (c : Cache) (es : List Event) (hw : ∀ e ∈ es, WF m e)
    (hc : c.datetime.length = 17) (h : c.Good lt ∨ ∀ e, es.head? = some e → Spec.second e.timestamp ≠ c.psec) :
    printed r c es = ownTimes lt es := by
  induction es generalizing c with
  | nil => rfl
  | cons e es ih =>
    have hg := Cache.update_good lt hlt c (Spec.second e.timestamp) hc (h.imp id (fun h => Ne.symm (h e rfl)))
    have hl := Cache.update_length lt c (Spec.second e.timestamp) hc
    obtain ⟨h1, h2⟩ := renders_head hr c e (hw e (.head _)) hc hcap
    rw [printed, h1, h2, ih _ (fun x hx => hw x (.tail _ hx)) hl (Or.inl hg.1), ownTimes, ownTimes, List.map_cons]
    congr 1
    rw [show (c.update lt (Spec.second e.timestamp)).datetime = stamp lt _ from hg.1, hg.2]
    rfl

/-- **C12** (partial: the first event rendered in a flush is not from second 0 of the epoch).  Every record of a
flush shows the local time of the second of its own event, whatever other seconds were converted before it. -/
theorem C12_own_time_partial {lt : LocalTime} (hlt : ∀ s, (lt s).Ok) {ti : ThreadInfo} {cap m : Nat} (hcap : 161 + m ≤ cap)
    {r : Cache → Event → W × Cache} (hr : Renders lt ti cap r) (es : List Event) (hw : ∀ e ∈ es, WF m e)
    (h0 : ∀ e, es.head? = some e → Spec.second e.timestamp ≠ 0) :
    printed r Cache.init es = ownTimes lt es :=
  printed_good hlt hcap hr Cache.init es hw Cache.init_length (Or.inr h0)

/-- non-trivial instance: seconds 5, 5, 7, 0, 5 -/
example : ∀ e, ([⟨5000000000, 0, [], [], .info, []⟩, ⟨5999999999, 0, [], [], .info, []⟩,
    ⟨7000000000, 0, [], [], .info, []⟩, ⟨0, 0, [], [], .info, []⟩] : List Event).head? = some e →
    Spec.second e.timestamp ≠ 0 := by
  intro e h; simp only [List.head?_cons, Option.some.injEq] at h; subst h; decide
/-- ... and what is printed for seconds 5 and 7 of one flush -/
example : printed (fun c e => syslogRecord (fun s => ⟨70, 1, 1, 0, 0, s.toNat⟩) .none c (fresh 300) e) Cache.init
    [⟨5999999999, 0, [], [], .info, []⟩, ⟨7000000000, 0, [], [], .info, []⟩] =
    ["70.01.01 00:00:05".toList, "70.01.01 00:00:07".toList] := by decide +kernel

theorem printed_zero {lt : LocalTime} {ti : ThreadInfo} {cap m : Nat} (hcap : 161 + m ≤ cap)
    {r : Cache → Event → W × Cache} (hr : Renders lt ti cap r) (e : Event) (es : List Event) (hw : WF m e)
    (h0 : Spec.second e.timestamp = 0) :
    (printed r Cache.init (e :: es)).head? = some (List.replicate 17 '\x00') ∧
    (ownTimes lt (e :: es)).head? ≠ some (List.replicate 17 '\x00') := by
  obtain ⟨h1, _⟩ := renders_head hr Cache.init e hw Cache.init_length hcap
  refine ⟨?_, ?_⟩
  · rw [printed, h1, h0]; rfl
  · intro h
    have h2 := Option.some.inj h
    have h3 : '.' ∈ List.replicate 17 '\x00' := by rw [← h2]; dsimp only; unfold Spec.dateTime; simp
    exact absurd (List.eq_of_mem_replicate h3) (by decide)

/-- The full C12 is false: an event stamped in second 0 of the epoch that is rendered first in a flush shows 17
NUL characters, because the cache starts with `psec = 0`. -/
theorem C12_refuted (lt : LocalTime) : ∃ e : Event, ∀ ti r, Renders lt ti 300 r →
    printed r Cache.init [e] = [List.replicate 17 '\x00'] ∧ ownTimes lt [e] ≠ [List.replicate 17 '\x00'] := by
  refine ⟨⟨0, 0, [], [], .info, []⟩, fun ti r hr => ?_⟩
  obtain ⟨h1, h2⟩ := printed_zero (m := 0) (by decide) hr ⟨0, 0, [], [], .info, []⟩ []
    ⟨by decide, by decide, by decide, by decide, by decide, by decide⟩ rfl
  refine ⟨?_, fun h => h2 (by rw [h]; rfl)⟩
  have h3 := Option.some.inj h1
  unfold printed printed
  rw [h3]

/-- **C12**, exactly: the times of a flush are right if and only if its first event is not from second 0 of the epoch. -/
theorem C12_iff_partial {lt : LocalTime} (hlt : ∀ s, (lt s).Ok) {ti : ThreadInfo} {cap m : Nat} (hcap : 161 + m ≤ cap)
    {r : Cache → Event → W × Cache} (hr : Renders lt ti cap r) (es : List Event) (hw : ∀ e ∈ es, WF m e) :
    printed r Cache.init es = ownTimes lt es ↔ ∀ e, es.head? = some e → Spec.second e.timestamp ≠ 0 := by
  refine ⟨fun h e he h0 => ?_, C12_own_time_partial hlt hcap hr es hw⟩
  cases es with
  | nil => cases he
  | cons x es =>
    cases he
    obtain ⟨h1, h2⟩ := printed_zero hcap hr e es (hw e (.head _)) h0
    exact h2 (h ▸ h1)

/-- **C12**, from the calls: messages pushed at the moments `env.now`, written by one flush, show the local times of these moments. -/
theorem C12_of_calls_partial {lt : LocalTime} (hlt : ∀ s, (lt s).Ok) {ti : ThreadInfo} {cap maxLen : Nat} (hcap : 161 + maxLen ≤ cap)
    {r : Cache → Event → W × Cache} (hr : Renders lt ti cap r) (calls : List (Env × Msg))
    (henv : ∀ c ∈ calls, 0 ≤ c.1.now ∧ c.1.threadNumber < 2 ^ 64)
    (h0 : ∀ c, calls.head? = some c → Spec.second c.1.now ≠ 0) :
    printed r Cache.init (calls.map fun c => mkEvent c.1 ti maxLen c.2) = calls.map fun c =>
      let t := lt (Spec.second c.1.now)
      Spec.dateTime t.year t.mon t.mday t.hour t.min t.sec := by
  have ht : ∀ c : Env × Msg, (mkEvent c.1 ti maxLen c.2).timestamp = c.1.now := fun c => rfl
  rw [C12_own_time_partial hlt hcap hr, ownTimes, List.map_map]
  · refine List.map_congr_left fun c _ => ?_
    simp only [Function.comp, ht]
  · intro e he
    obtain ⟨c, hc, rfl⟩ := List.mem_map.mp he
    exact mkEvent_wf c.1 ti maxLen c.2 (henv c hc).1 (henv c hc).2
  · intro e he
    cases calls with
    | nil => cases he
    | cons c cs => cases he; rw [ht]; exact h0 c rfl

end Render
end Soralog
