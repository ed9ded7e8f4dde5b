import Verif.Proofs.SinkConc
/-!
# A file sink whose file could not be opened at first (for C24)
-/
namespace Soralog
namespace SinkConc

/-- `Flow`, with the events that left the queue before the file was open -/
structure FlowL (lost : List Event) (s : St) : Prop where
  shut : s.isOpen = false → s.written = []
  body : ∀ t, (s.pc t).inBody = true → s.put.take s.taken = lost ++ (s.written ++ (s.pc t).flight)
  free : s.flag = false → s.put.take s.taken = lost ++ s.written

theorem step_flowL (c : Cfg) (s : St) (t : Tid) (ch : Ch) (hl : s.taken ≤ s.put.length) (hk : (s.pc t).fits c) (hs : c.isSyslog = false)
    (hw : s.isOpen = false → s.written = []) (lost : List Event) :
    ((step c s t ch).put.take (step c s t ch).taken = s.put.take s.taken ∧ (step c s t ch).written = s.written ∧
      ((step c s t ch).pc t).flight = (s.pc t).flight) ∨
    ((s.pc t).inBody = true ∧
      (s.put.take s.taken = lost ++ (s.written ++ (s.pc t).flight) →
        ∃ lost', (s.isOpen = true → lost' = lost) ∧
          (step c s t ch).put.take (step c s t ch).taken = lost' ++ ((step c s t ch).written ++ ((step c s t ch).pc t).flight) ∧
          (s.isOpen = false → (step c s t ch).written = []))) := by
  cases hp : s.pc t with
  | get k =>
    unfold step; simp only [hp]
    split
    · left; refine ⟨rfl, rfl, ?_⟩; show PC.flight (upd _ _ _ _) = _; rw [upd, if_pos rfl]; exact flight_nothing c k
    · rename_i e he
      split
      · right
        refine ⟨rfl, ?_⟩
        intro h
        refine ⟨lost, fun _ => rfl, ?_, hw⟩
        show s.put.take (s.taken + 1) = lost ++ (s.written ++ PC.flight (upd s.pc t (taking c k e) t))
        rw [take_succ_get he, h, upd, if_pos rfl, flight_taking]
        simp [PC.flight]
      · left; simp [PC.flight, hp]
  | write k e =>
    cases e with
    | none => left; unfold step; simp only [hp]; simp [setPc, upd, PC.flight]
    | some e =>
      right
      refine ⟨rfl, ?_⟩
      intro h
      cases ho : s.isOpen with
      | true =>
        refine ⟨lost, fun _ => rfl, ?_, (fun hc => by cases hc)⟩
        unfold step; simp only [hp, ho, if_true]
        simpa [setPc, upd, PC.flight] using h
      | false =>
        refine ⟨lost ++ [e], (fun hc => by cases hc), ?_, fun _ => ?_⟩
        · unfold step; simp only [hp, ho]
          rw [hw ho] at h
          simpa [setPc, upd, PC.flight, hw ho] using h
        · unfold step; simp only [hp, ho]
          simpa [setPc] using hw ho
  | sCall k e => rw [hp] at hk; simp only [PC.fits] at hk; rw [hs] at hk; cases hk
  | put e =>
    left; unfold step; simp only [hp]; repeat' split
    all_goals simp [setPc, upd, PC.flight, hp, take_snoc, hl]
  | enter k =>
    left; unfold step; simp only [hp]; split
    · refine ⟨rfl, rfl, ?_⟩; show PC.flight (upd _ _ _ _) = _; rw [upd, if_pos rfl]; exact flight_afterFlush k
    · simp [setPc, upd, PC.flight]
  | leave k =>
    left; unfold step; simp only [hp]
    refine ⟨rfl, rfl, ?_⟩; show PC.flight (upd _ _ _ _) = _; rw [upd, if_pos rfl]; exact flight_afterFlush k
  | _ =>
    left; unfold step; simp only [hp]; (repeat' split) <;> simp [setPc, upd, PC.flight, hp]

theorem step_shut {c : Cfg} {s : St} {t : Tid} {ch : Ch} (h : (step c s t ch).isOpen = false) : s.isOpen = false := by
  cases ho : s.isOpen with
  | false => rfl
  | true => rw [step_isOpen c s t ch ho] at h; cases h

theorem flowL_step {c : Cfg} (hk : c.isSyslog = false) {s : St} {lost : List Event} (hx : Excl s) (ht : Tick c s)
    (hfit : ∀ t, (s.pc t).fits c) (h : FlowL lost s) (t : Tid) (ch : Ch)
    (hx' : Excl (step c s t ch)) : ∃ lost', (s.isOpen = true → lost' = lost) ∧ FlowL lost' (step c s t ch) := by
  have hother := fun u (hu : u ≠ t) => step_pc_other c s t ch u hu
  rcases step_flowL c s t ch ht.taken (hfit t) hk h.shut lost with ⟨h1, h2, h3⟩ | ⟨h1, h2⟩
  · refine ⟨lost, fun _ => rfl, ?_, ?_, ?_⟩
    · intro hs; rw [h2]; exact h.shut (step_shut hs)
    · intro u hu
      by_cases hut : u = t
      · subst hut
        rw [h1, h2, h3]
        cases hb : (s.pc u).inBody with
        | true => exact h.body u hb
        | false =>
          rw [flight_of_not_inBody hb, List.append_nil]
          apply h.free
          rcases step_body c s u ch with ⟨b, _⟩ | ⟨_, b, _⟩ | ⟨b, _⟩
          · rw [hu, hb] at b; cases b
          · exact b
          · rw [hb] at b; cases b
      · rw [hother u hut] at hu ⊢
        rw [h1, h2]; exact h.body u hu
    · intro hf
      have hnb : ((step c s t ch).pc t).inBody = false := by
        cases hb : ((step c s t ch).pc t).inBody with
        | false => rfl
        | true => have := hx'.flag t hb; rw [hf] at this; cases this
      rw [h1, h2]
      cases hb : (s.pc t).inBody with
      | true =>
        rw [h.body t hb, ← h3, flight_of_not_inBody hnb, List.append_nil]
      | false =>
        apply h.free
        rcases step_body c s t ch with ⟨_, b⟩ | ⟨_, b, _⟩ | ⟨b, _⟩
        · rw [← b]; exact hf
        · exact b
        · rw [hb] at b; cases b
  · obtain ⟨lost', g1, g2, g3⟩ := h2 (h.body t h1)
    refine ⟨lost', g1, fun hs => g3 (step_shut hs), ?_, ?_⟩
    · intro u hu
      by_cases hut : u = t
      · subst hut; exact g2
      · rw [hother u hut] at hu
        exact absurd (hx.uniq u t hu h1) hut
    · intro hf
      have hnb : ((step c s t ch).pc t).inBody = false := by
        cases hb : ((step c s t ch).pc t).inBody with
        | false => rfl
        | true => have := hx'.flag t hb; rw [hf] at this; cases this
      rw [flight_of_not_inBody hnb, List.append_nil] at g2
      exact g2

theorem flowL_exec {c : Cfg} (hk : c.isSyslog = false) {o : Bool} {s s' : St} {lost : List Event} (hr : Reach c o s) (he : Exec c s s')
    (ih : FlowL lost s) : ∃ lost', (s.isOpen = true → lost' = lost) ∧ FlowL lost' s' := by
  have hx' := excl_reach (Reach.next hr he)
  cases he with
  | step t ch => exact flowL_step hk (excl_reach hr) (tick_reach hr) (fun t => fits_reach hr t) ih t ch hx'
  | call t ht hi hd call =>
    refine ⟨lost, fun _ => rfl, ih.shut, ?_, ih.free⟩
    intro u hu
    have := upd_not_body (s := s) (t := t) (by cases call <;> rfl) hu
    show s.put.take s.taken = lost ++ (s.written ++ (upd s.pc t _ u).flight)
    rw [this]; exact ih.body u (by rw [← this]; exact hu)
  | destroy t ht hd hi =>
    refine ⟨lost, fun _ => rfl, ih.shut, ?_, ih.free⟩
    intro u hu
    have := upd_not_body (s := s) (t := t) (p := .dStart) rfl hu
    show s.put.take s.taken = lost ++ (s.written ++ (upd s.pc t _ u).flight)
    rw [this]; exact ih.body u (by rw [← this]; exact hu)

theorem flowL_reach {c : Cfg} (hk : c.isSyslog = false) {o : Bool} {s : St} (h : Reach c o s) : ∃ lost, FlowL lost s := by
  induction h with
  | init =>
    refine ⟨[], fun _ => rfl, ?_, fun _ => rfl⟩
    intro t h
    have : ((init c o).pc t).inBody = false := by
      simp only [init]; split
      · split <;> rfl
      · rfl
    rw [this] at h; cases h
  | @next s s' hr he ih =>
    obtain ⟨lost, h⟩ := ih
    obtain ⟨l', _, h'⟩ := flowL_exec hk hr he h
    exact ⟨l', h'⟩

end SinkConc
end Soralog
