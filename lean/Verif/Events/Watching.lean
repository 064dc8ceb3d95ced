import Verif.Events.Spec

namespace Pulumi.Events

theorem readline_line (l r : Text) (h : '\n' ∉ l) :
    readline (l ++ '\n' :: r) = (l ++ ['\n'], r) := by
  induction l with
  | nil => simp [readline]
  | cons c t ih =>
    have hc : c ≠ '\n' := fun he => h (he ▸ List.mem_cons_self ..)
    have ht : '\n' ∉ t := fun hm => h (List.mem_cons_of_mem _ hm)
    simp only [List.cons_append, readline, if_neg hc, ih ht]

theorem readline_all (l : Text) (h : '\n' ∉ l) : readline l = (l, []) := by
  induction l with
  | nil => rfl
  | cons c t ih =>
    have hc : c ≠ '\n' := fun he => h (he ▸ List.mem_cons_self ..)
    have ht : '\n' ∉ t := fun hm => h (List.mem_cons_of_mem _ hm)
    simp only [readline, if_neg hc, ih ht]

theorem logText_cons (l : Text) (ls : List Text) :
    logText (l :: ls) = l ++ '\n' :: logText ls := by
  simp [logText]

theorem logText_append (a b : List Text) : logText (a ++ b) = logText a ++ logText b := by
  simp [logText]

/-- A prefix of a line and what follows it is a prefix of the line, or goes on
after its line feed. -/
theorem prefix_line (u l r : Text) (h : u <+: l ++ '\n' :: r) :
    u <+: l ∨ ∃ u', u = l ++ '\n' :: u' ∧ u' <+: r := by
  induction l generalizing u with
  | nil =>
    cases u with
    | nil => exact Or.inl (List.prefix_refl _)
    | cons c u' =>
      rw [List.nil_append, List.cons_prefix_cons] at h
      exact Or.inr ⟨u', by rw [h.1]; rfl, h.2⟩
  | cons c t ih =>
    cases u with
    | nil => exact Or.inl (List.nil_prefix)
    | cons d u' =>
      rw [List.cons_append, List.cons_prefix_cons] at h
      obtain ⟨rfl, h⟩ := h
      rcases ih u' h with h | ⟨u'', rfl, h2⟩
      · exact Or.inl (List.cons_prefix_cons.mpr ⟨rfl, h⟩)
      · exact Or.inr ⟨u'', rfl, h2⟩

theorem prefix_of_append (u f t : Text) (h : u ++ f <+: t) : u <+: t :=
  (List.prefix_append u f).trans h

theorem append_prefix_right (a b t : Text) (h : a ++ b <+: a ++ t) : b <+: t :=
  (List.prefix_append_right_inj a).mp h

theorem upto_prefix_cons (p : Event → Bool) (e : Event) (r : List Event) :
    [e] <+: upto p (e :: r) := by
  simp only [upto]
  split
  · exact List.prefix_refl _
  · exact List.cons_prefix_cons.mpr ⟨rfl, List.nil_prefix⟩

theorem poll_stopped (w : World) (st : Watch) (h : st.thread ≠ .running) : poll w st = st := by
  simp only [poll, if_neg h]

theorem run_stopped (w : World) (st : Watch) (h : st.thread ≠ .running) (as : List Act) :
    (run w st as).delivered = st.delivered ∧ (run w st as).thread = st.thread := by
  induction as generalizing st with
  | nil => exact ⟨rfl, rfl⟩
  | cons a r ih =>
    simp only [run, List.foldl_cons]
    cases a with
    | write t => exact ih _ h
    | turn =>
      simp only [act, poll_stopped w st h]
      exact ih st h

theorem poll_idle (w : World) (st : Watch) (h : st.unread = []) : poll w st = st := by
  simp only [poll, h, readline]
  split <;> rfl

theorem poll_error (w : World) (st : Watch) (line rest : Text) (x : Exn)
    (hr : st.thread = .running) (hl : readline st.unread = (line, rest)) (hne : line ≠ [])
    (hp : parseLine w line = .error x) :
    poll w st = ⟨rest, st.delivered, .dead⟩ := by
  have : line.isEmpty = false := by cases line; exact absurd rfl hne; rfl
  simp only [poll, if_pos hr, hl, this, hp]
  rfl

theorem poll_ok (w : World) (st : Watch) (line rest : Text) (e : Event)
    (hr : st.thread = .running) (hl : readline st.unread = (line, rest)) (hne : line ≠ [])
    (hp : parseLine w line = .ok e) :
    poll w st = handle w { st with unread := rest } e := by
  have : line.isEmpty = false := by cases line; exact absurd rfl hne; rfl
  simp only [poll, if_pos hr, hl, this, hp]
  rfl

theorem handle_delivered (w : World) (st : Watch) (e : Event) :
    (handle w st e).delivered = st.delivered ++ [e] := by
  simp only [handle]; split
  · rfl
  · split <;> rfl

theorem handle_unread (w : World) (st : Watch) (e : Event) :
    (handle w st e).unread = st.unread := by
  simp only [handle]; split
  · rfl
  · split <;> rfl

theorem handle_running (w : World) (st : Watch) (e : Event) :
    (handle w st e).thread = .running ↔ ends w e = false := by
  simp only [handle, ends]
  cases w.raises e <;> cases e.cancel <;> simp

/-- The watch goes on as it should: what is delivered and what is left to come
make up the events of the log, and the characters to come are those of the
lines left (after, perhaps, the line feed of a line read without it). -/
def Going (w : World) (all : List Event) (future : Text) (st : Watch) : Prop :=
  st.thread = .running ∧ ∃ rl re, LogOf w rl re
    ∧ st.delivered ++ upto (ends w) re = upto (ends w) all
    ∧ (st.unread ++ future <+: logText rl ∨ st.unread ++ future <+: '\n' :: logText rl)

/-- The watch is over. -/
def Over (w : World) (all : List Event) (st : Watch) : Prop :=
  st.thread ≠ .running ∧ st.delivered <+: upto (ends w) all

theorem after_event (w : World) (all : List Event) (future : Text) (st : Watch) (e : Event)
    (rl : List Text) (re : List Event) (rest : Text) (hlog : LogOf w rl re)
    (hd : st.delivered ++ upto (ends w) (e :: re) = upto (ends w) all)
    (hu : rest ++ future <+: logText rl ∨ rest ++ future <+: '\n' :: logText rl) :
    Going w all future (handle w { st with unread := rest } e)
    ∨ Over w all (handle w { st with unread := rest } e) := by
  by_cases he : ends w e = false
  · left
    refine ⟨(handle_running ..).mpr he, rl, re, hlog, ?_, ?_⟩
    · rw [handle_delivered, ← hd]
      simp [upto, he]
    · rw [handle_unread]; exact hu
  · right
    refine ⟨fun hr => he ((handle_running ..).mp hr), ?_⟩
    rw [handle_delivered, ← hd]
    exact (List.prefix_append_right_inj _).mpr (upto_prefix_cons _ _ _)

theorem going_poll (w : World) (all : List Event) (future : Text) (st : Watch)
    (hblank : ∃ x, parseLine w ['\n'] = .error x) (h : Going w all future st) :
    Going w all future (poll w st) ∨ Over w all (poll w st) := by
  obtain ⟨hr, rl, re, hlog, hd, hu⟩ := h
  have hpre : st.delivered <+: upto (ends w) all := hd ▸ List.prefix_append _ _
  by_cases hne : st.unread = []
  · rw [poll_idle w st hne]
    exact Or.inl ⟨hr, rl, re, hlog, hd, hu⟩
  rcases hu with hu | hu
  · cases rl with
    | nil =>
      have := prefix_of_append _ _ _ hu
      exact absurd (List.prefix_nil.mp this) hne
    | cons l rl =>
      cases re with
      | nil => exact absurd hlog id
      | cons e re =>
        obtain ⟨⟨hnl, hl0, hp1, hp2, hp3⟩, hlog⟩ := hlog
        rw [logText_cons] at hu
        rcases prefix_line _ _ _ (prefix_of_append _ _ _ hu) with h | ⟨u', hu', _⟩
        · have hn : '\n' ∉ st.unread := fun hm => hnl (h.subset hm)
          by_cases heq : st.unread = l
          · rw [poll_ok w st l [] e hr (heq ▸ readline_all l hnl) hl0 hp2]
            refine after_event w all future st e rl re [] hlog hd (Or.inr ?_)
            rw [heq] at hu
            exact append_prefix_right _ _ _ hu
          · obtain ⟨x, hx⟩ := hp3 _ h heq hne
            rw [poll_error w st _ _ x hr (readline_all _ hn) hne hx]
            exact Or.inr ⟨(fun h => nomatch h), hpre⟩
        · rw [poll_ok w st (l ++ ['\n']) u' e hr (hu' ▸ readline_line l u' hnl) (by simp) hp1]
          refine after_event w all future st e rl re u' hlog hd (Or.inl ?_)
          rw [hu'] at hu
          have : l ++ '\n' :: (u' ++ future) <+: l ++ '\n' :: logText rl := by simpa using hu
          have := append_prefix_right _ _ _ this
          exact (List.cons_prefix_cons.mp this).2
  · cases hs : st.unread with
    | nil => exact absurd hs hne
    | cons c u' =>
      rw [hs, List.cons_append, List.cons_prefix_cons] at hu
      obtain ⟨x, hx⟩ := hblank
      have hrl : readline st.unread = (['\n'], u') := by
        rw [hs, hu.1]; simp [readline]
      rw [poll_error w st _ _ x hr hrl (by simp) hx]
      exact Or.inr ⟨(fun h => nomatch h), hpre⟩

theorem going_run (w : World) (all : List Event)
    (hblank : ∃ x, parseLine w ['\n'] = .error x) (as : List Act) (st : Watch)
    (h : Going w all (written as) st) : (run w st as).delivered <+: upto (ends w) all := by
  induction as generalizing st with
  | nil =>
    obtain ⟨_, _, _, _, hd, _⟩ := h
    exact hd ▸ List.prefix_append _ _
  | cons a r ih =>
    simp only [run, List.foldl_cons]
    cases a with
    | write t =>
      refine ih _ ?_
      obtain ⟨hr, rl, re, hlog, hd, hu⟩ := h
      refine ⟨hr, rl, re, hlog, hd, ?_⟩
      simpa [written, act] using hu
    | turn =>
      have h' : Going w all (written r) st := h
      rcases going_poll w all (written r) st hblank h' with h | h
      · exact ih _ h
      · have := (run_stopped w (poll w st) h.1 r).1
        simp only [run] at this
        simp only [act, this]
        exact h.2

/-! ## Whole lines -/

/-- The watch with whole lines waiting. -/
def Whole (w : World) (all : List Event) (waiting : List Text) (future : List Text)
    (st : Watch) : Prop :=
  st.unread = logText waiting ∧ st.thread = .running
  ∧ ∃ re, LogOf w (waiting ++ future) re ∧ st.delivered ++ upto (ends w) re = upto (ends w) all
      ∧ ((∃ e ∈ re, ends w e = true) ↔ ∃ e ∈ all, ends w e = true)

/-- The watch is over with everything delivered. -/
def Finished (w : World) (all : List Event) (st : Watch) : Prop :=
  st.thread ≠ .running ∧ st.delivered = upto (ends w) all ∧ ∃ e ∈ all, ends w e = true

theorem whole_poll (w : World) (all : List Event) (l : Text) (waiting future : List Text)
    (st : Watch) (h : Whole w all (l :: waiting) future st) :
    Whole w all waiting future (poll w st) ∨ Finished w all (poll w st) := by
  obtain ⟨hu, hr, re, hlog, hd, hiff⟩ := h
  cases re with
  | nil => exact absurd hlog id
  | cons e re =>
    obtain ⟨⟨hnl, hl0, hp1, _, _⟩, hlog⟩ := hlog
    rw [logText_cons] at hu
    rw [poll_ok w st (l ++ ['\n']) (logText waiting) e hr (hu ▸ readline_line l _ hnl) (by simp) hp1]
    by_cases he : ends w e = false
    · left
      refine ⟨by rw [handle_unread], (handle_running ..).mpr he, re, hlog, ?_, ?_⟩
      · rw [handle_delivered, ← hd]; simp [upto, he]
      · rw [← hiff]; simp [he]
    · right
      refine ⟨fun hr => he ((handle_running ..).mp hr), ?_, hiff.mp ⟨e, List.mem_cons_self .., ?_⟩⟩
      · rw [handle_delivered, ← hd]; simp [upto, he]
      · simpa using he

theorem whole_idle (w : World) (all : List Event) (future : List Text)
    (st : Watch) (h : Whole w all [] future st) : poll w st = st := poll_idle w st h.1

theorem whole_run (w : World) (all : List Event) (as : List LineAct) (waiting : List Text)
    (st : Watch) (h : Whole w all waiting (linesOf as) st) :
    (∃ k, k.length ≤ waiting.length + (linesOf as).length
      ∧ Whole w all k [] (run w st (as.map (·.act))))
    ∨ Finished w all (run w st (as.map (·.act))) := by
  induction as generalizing waiting st with
  | nil => exact Or.inl ⟨waiting, by simp [linesOf], h⟩
  | cons a r ih =>
    simp only [run, List.map_cons, List.foldl_cons]
    cases a with
    | lines ls =>
      obtain ⟨hu, hr, re, hlog, hd, hiff⟩ := h
      rcases ih (waiting ++ ls) (act w st (.write (logText ls)))
        ⟨by simp [act, hu, logText_append], hr, re, by simpa [linesOf] using hlog, hd, hiff⟩ with
        ⟨k, hk, h⟩ | h
      · exact Or.inl ⟨k, by simp [linesOf] at hk ⊢; omega, h⟩
      · exact Or.inr h
    | turn =>
      cases waiting with
      | nil =>
        have hi := whole_idle w all _ st h
        simp only [LineAct.act, act, hi]
        exact ih [] st h
      | cons l waiting =>
        rcases whole_poll w all l waiting (linesOf r) st h with h | h
        · rcases ih waiting _ h with ⟨k, hk, h⟩ | h
          · exact Or.inl ⟨k, by simp [linesOf] at hk ⊢; omega, h⟩
          · exact Or.inr h
        · right
          have := run_stopped w (poll w st) h.1 (r.map (·.act))
          simp only [run] at this
          refine ⟨?_, ?_, h.2.2⟩
          · exact fun hr => h.1 (this.2.symm.trans hr)
          · exact this.1.trans h.2.1

theorem whole_turns (w : World) (all : List Event) (n : Nat) (waiting : List Text)
    (st : Watch) (h : Whole w all waiting [] st) (hn : waiting.length ≤ n) :
    (run w st (List.replicate n .turn)).delivered = upto (ends w) all
    ∧ ((run w st (List.replicate n .turn)).thread = .running ↔ ∀ e ∈ all, ends w e = false) := by
  induction n generalizing waiting st with
  | zero =>
    cases waiting with
    | cons l r => exact absurd hn (by simp)
    | nil =>
      obtain ⟨_, hr, re, hlog, hd, hiff⟩ := h
      cases re with
      | cons e r => exact absurd hlog id
      | nil =>
        refine ⟨by simpa [upto, run] using hd, ?_⟩
        simp only [List.replicate_zero, run, List.foldl_nil, hr, true_iff]
        intro e he
        cases hc : ends w e with
        | false => rfl
        | true =>
          obtain ⟨e', he', _⟩ := hiff.mpr ⟨e, he, hc⟩
          exact absurd he' (by simp)
  | succ n ih =>
    simp only [run, List.replicate_succ, List.foldl_cons, act]
    cases waiting with
    | nil =>
      rw [whole_idle w all _ st h]
      exact ih [] st h (by simp)
    | cons l waiting =>
      rcases whole_poll w all l waiting [] st h with h | h
      · exact ih waiting _ h (by simpa using hn)
      · have := run_stopped w (poll w st) h.1 (List.replicate n .turn)
        simp only [run] at this
        rw [this.1, this.2]
        refine ⟨h.2.1, ⟨fun hr => absurd hr h.1, fun hall => ?_⟩⟩
        obtain ⟨e, he, hc⟩ := h.2.2
        rw [hall e he] at hc
        exact nomatch hc

theorem run_append (w : World) (st : Watch) (a b : List Act) :
    run w st (a ++ b) = run w (run w st a) b := by
  simp [run]

theorem firstSummary_eq (es : List Event) :
    firstSummary es = (summaries es).head?.map (·.resourceChanges) := by
  induction es with
  | nil => rfl
  | cons e r ih =>
    simp only [firstSummary, summaries, List.filterMap_cons]
    cases e.summary with
    | none => exact ih
    | some s => rfl

theorem previewResult_eq (st : Watch) : previewResult st = firstSummary st.delivered := by
  rw [firstSummary_eq]
  simp only [previewResult]
  cases summaries st.delivered <;> rfl

theorem firstSummary_prefix (a b : List Event) (h : a <+: b) (c : J) (hc : firstSummary a = some c) :
    firstSummary b = some c := by
  obtain ⟨t, rfl⟩ := h
  induction a with
  | nil => exact nomatch hc
  | cons e r ih =>
    simp only [List.cons_append, firstSummary] at hc ⊢
    cases hs : e.summary with
    | none => rw [hs] at hc; exact ih hc
    | some s => rw [hs] at hc; exact hc

end Pulumi.Events
