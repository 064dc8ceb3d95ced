/-!
# The lease of an update (C208)

Models `/repo/pkg/backend/httpstate/token_source.go:55-125`, with what `newUpdate` gives it (`state.go:168-197` beside it): the duration of a lease and a renewal whose token is taken to
expire that long after it has come. The ticker and the requests are a list of events in the order in which the one goroutine deals with them. Times are whole numbers.
-/
namespace Pulumi.Service

/-- What the service answers to a renewal: a token, when the service granted it and when the answer came, or an error -/
inductive Answer where
  | token (t : String) (granted came : Int)
  | error (e : String)
deriving DecidableEq, Repr

/-- A tick of the ticker or a request for a token, at a time; `answer` is what the service would say then. -/
structure Ev where
  request : Bool
  now : Int
  answer : Answer
deriving DecidableEq, Repr

/-- The state (70-77): the token and its assumed expiry, or an error for good -/
structure Lease where
  token : String
  expires : Int
  error : Option String
deriving DecidableEq, Repr

/-- `renewUpdateLeaseIfStale` (79-103), with the expiry that `assumedExpires` gives (state.go:176-178, 189), and the token that the service is asked to renew, if it is -/
def renew (d : Int) (s : Lease) (e : Ev) : Lease × Option String :=
  if s.error.isSome then (s, none)
  else if ¬ (e.now + d / 2 > s.expires) then (s, none)
  else
    match e.answer with
    | .token t _ came => (⟨t, came + d, none⟩, some s.token)
    | .error err => ({ s with error := some ("renewing lease: " ++ err) }, some s.token)

/-- What there is to see: a renewal that is asked for, with the token and the answer, and an answer to a request -/
inductive Seen where
  | renewal (now : Int) (token : String) (answer : Answer)
  | given (now : Int) (token : String)
  | refused (now : Int) (error : String)
deriving DecidableEq, Repr

/-- One round of the loop (105-124) -/
def round (d : Int) (s : Lease) (e : Ev) : Lease × List Seen :=
  let r := renew d s e
  let asked := match r.2 with | some t => [.renewal e.now t e.answer] | none => []
  if e.request then
    match r.1.error with
    | none => (r.1, asked ++ [.given e.now r.1.token])
    | some err => (r.1, asked ++ [.refused e.now err])
  else (r.1, asked)

/-- The loop (105-124), up to where the list of what happens ends -/
def rounds (d : Int) : Lease → List Ev → Lease × List Seen
  | s, [] => (s, [])
  | s, e :: l =>
    let (s', o) := round d s e
    let (s'', o') := rounds d s' l
    (s'', o ++ o')

/-- The source of a new update, whose token is granted and comes at a time (state.go:192) -/
def start (d : Int) (t : String) (came : Int) : Lease := ⟨t, came + d, none⟩

/-! ## What is said about it -/

/-- A token that the service has given: the first one, or in answer to a renewal -/
def Granted (t₀ : String) (g₀ c₀ : Int) (l : List Ev) (t : String) (granted came : Int) : Prop := (t = t₀ ∧ granted = g₀ ∧ came = c₀) ∨ ∃ e ∈ l, e.answer = .token t granted came

theorem rounds_cons (d : Int) (s : Lease) (e : Ev) (l : List Ev) : rounds d s (e :: l) = ((rounds d (round d s e).1 l).1, (round d s e).2 ++ (rounds d (round d s e).1 l).2) := rfl

theorem rounds_append (d : Int) (s : Lease) (l m : List Ev) : rounds d s (l ++ m) = ((rounds d (rounds d s l).1 m).1, (rounds d s l).2 ++ (rounds d (rounds d s l).1 m).2) := by
  induction l generalizing s with
  | nil => simp [rounds]
  | cons e l ih => simp only [List.cons_append, rounds_cons, ih, List.append_assoc]

/-- The token is one that the service has given. -/
def Lease.Has (d : Int) (s : Lease) (t₀ : String) (g₀ c₀ : Int) (l : List Ev) : Prop := s.error = none → ∃ g c, Granted t₀ g₀ c₀ l s.token g c ∧ s.expires = c + d

theorem round_has {d : Int} {s : Lease} {t₀ : String} {g₀ c₀ : Int} {l : List Ev} (h : s.Has d t₀ g₀ c₀ l) (e : Ev) : (round d s e).1.Has d t₀ g₀ c₀ (l ++ [e]) := by
  have hr : (round d s e).1 = (renew d s e).1 := by
    unfold round
    simp only
    split
    · split <;> rfl
    · rfl
  rw [hr]
  intro he
  have keep : s.error = none → ∃ g c, Granted t₀ g₀ c₀ (l ++ [e]) s.token g c ∧ s.expires = c + d := by
    intro hs
    obtain ⟨g, c, h1, h2⟩ := h hs
    refine ⟨g, c, ?_, h2⟩
    rcases h1 with h1 | ⟨x, hx, h1⟩
    · exact .inl h1
    · exact .inr ⟨x, by simp [hx], h1⟩
  unfold renew at he ⊢
  split
  · rename_i hs
    rw [if_pos hs] at he
    exact keep he
  · rename_i hs
    rw [if_neg hs] at he
    split
    · exact keep (by simpa using hs)
    · rename_i hst
      rw [if_neg hst] at he
      cases ha : e.answer with
      | token t g c => exact ⟨g, c, .inr ⟨e, by simp, ha⟩, rfl⟩
      | error err => rw [ha] at he; simp at he

theorem rounds_has {d : Int} {t₀ : String} {g₀ c₀ : Int} (m : List Ev) : ∀ {s : Lease} {l : List Ev}, s.Has d t₀ g₀ c₀ l → (rounds d s m).1.Has d t₀ g₀ c₀ (l ++ m) := by
  induction m with
  | nil => intro s l h; simpa [rounds] using h
  | cons e m ih =>
    intro s l h
    rw [rounds_cons]
    have := ih (round_has h e)
    simpa using this

theorem mem_rounds {d : Int} {o : Seen} (l : List Ev) : ∀ {s : Lease}, o ∈ (rounds d s l).2 → ∃ l₁ e l₂, l = l₁ ++ e :: l₂ ∧ o ∈ (round d (rounds d s l₁).1 e).2 := by
  induction l with
  | nil => intro s h; cases h
  | cons e l ih =>
    intro s h
    rw [rounds_cons] at h
    rcases List.mem_append.mp h with h | h
    · exact ⟨[], e, l, rfl, h⟩
    · obtain ⟨l₁, e', l₂, rfl, h2⟩ := ih h
      exact ⟨e :: l₁, e', l₂, rfl, h2⟩

theorem mem_round {d : Int} {s : Lease} {e : Ev} {o : Seen} (h : o ∈ (round d s e).2) :
    (∃ t, (renew d s e).2 = some t ∧ o = .renewal e.now t e.answer) ∨
    (e.request = true ∧ (((renew d s e).1.error = none ∧ o = .given e.now (renew d s e).1.token) ∨ ∃ err, (renew d s e).1.error = some err ∧ o = .refused e.now err)) := by
  unfold round at h
  simp only at h
  have asked : ∀ {x : Seen}, x ∈ (match (renew d s e).2 with | some t => [Seen.renewal e.now t e.answer] | none => []) → ∃ t, (renew d s e).2 = some t ∧ x = .renewal e.now t e.answer := by
    intro x hx
    split at hx
    · rename_i t ht
      exact ⟨t, ht, List.mem_singleton.mp hx⟩
    · cases hx
  split at h
  · rename_i hq
    split at h
    · rename_i he
      rcases List.mem_append.mp h with h | h
      · exact .inl (asked h)
      · exact .inr ⟨hq, .inl ⟨he, List.mem_singleton.mp h⟩⟩
    · rename_i err he
      rcases List.mem_append.mp h with h | h
      · exact .inl (asked h)
      · exact .inr ⟨hq, .inr ⟨err, he, List.mem_singleton.mp h⟩⟩
  · exact .inl (asked h)

/-- **C208** A token that is given was granted by the service, and is taken to be good for at least half of the duration, unless it has been granted in answer to this very request. -/
theorem given_is_fresh {d : Int} {t₀ : String} {g₀ c₀ : Int} {l : List Ev} {now : Int} {t : String} (h : .given now t ∈ (rounds d (start d t₀ c₀) l).2) :
    ∃ g c, Granted t₀ g₀ c₀ l t g c ∧ (now + d / 2 ≤ c + d ∨ ∃ e ∈ l, e.request = true ∧ e.now = now ∧ e.answer = .token t g c) := by
  obtain ⟨l₁, e, l₂, rfl, ho⟩ := mem_rounds l h
  have hs : (start d t₀ c₀).Has d t₀ g₀ c₀ [] := fun _ => ⟨g₀, c₀, .inl ⟨rfl, rfl, rfl⟩, rfl⟩
  have hh : (rounds d (start d t₀ c₀) l₁).1.Has d t₀ g₀ c₀ l₁ := by simpa using rounds_has l₁ hs
  generalize (rounds d (start d t₀ c₀) l₁).1 = s at ho hh
  have widen : ∀ {t g c}, Granted t₀ g₀ c₀ l₁ t g c → Granted t₀ g₀ c₀ (l₁ ++ e :: l₂) t g c := by
    intro t g c h1
    rcases h1 with h1 | ⟨x, hx, h1⟩
    · exact .inl h1
    · exact .inr ⟨x, by simp [hx], h1⟩
  rcases mem_round ho with ⟨t', -, e1⟩ | ⟨hq, ⟨he, e1⟩ | ⟨err, -, e1⟩⟩
  · cases e1
  · cases e1
    have he' := he
    unfold renew at he ⊢
    split
    · rename_i h1
      rw [if_pos h1] at he
      rw [he] at h1; cases h1
    · rename_i h1
      split
      · rename_i h2
        obtain ⟨g, c, h3, h4⟩ := hh (by simpa using h1)
        exact ⟨g, c, widen h3, .inl (by omega)⟩
      · rename_i h2
        rw [if_neg h1, if_neg h2] at he
        cases ha : e.answer with
        | token t g c => exact ⟨g, c, .inr ⟨e, by simp, ha⟩, .inr ⟨e, by simp, hq, rfl, ha⟩⟩
        | error err => rw [ha] at he; simp at he
  · cases e1

/-- **C208** If the answers of the service take no longer than half of the duration, every token that is given is one whose lease, counted from when the service granted it, has not run out:
when it is asked for, or, if it is renewed for that, when it comes. -/
theorem lease_has_not_run_out {d : Int} {t₀ : String} {g₀ c₀ : Int} {l : List Ev} (hg : c₀ - g₀ ≤ d / 2) (hd : 0 ≤ d) (hl : ∀ e ∈ l, ∀ t g c, e.answer = .token t g c → c - g ≤ d / 2)
    {now : Int} {t : String} (h : .given now t ∈ (rounds d (start d t₀ c₀) l).2) :
    ∃ g c, Granted t₀ g₀ c₀ l t g c ∧ (now ≤ g + d ∨ c ≤ g + d ∧ ∃ e ∈ l, e.request = true ∧ e.now = now ∧ e.answer = .token t g c) := by
  obtain ⟨g, c, h1, h2⟩ := given_is_fresh (g₀ := g₀) h
  have hc : c - g ≤ d / 2 := by
    rcases h1 with ⟨-, rfl, rfl⟩ | ⟨e, he, ha⟩
    · exact hg
    · exact hl e he t g c ha
  refine ⟨g, c, h1, ?_⟩
  rcases h2 with h2 | ⟨e, he, h3, h4, h5⟩
  · exact .inl (by omega)
  · exact .inr ⟨by omega, e, he, h3, h4, h5⟩

theorem renew_none {d : Int} {s : Lease} {e : Ev} {t : String} (h : (renew d s e).2 = some t) : s.error = none ∧ t = s.token ∧ e.now + d / 2 > s.expires := by
  unfold renew at h
  split at h
  · cases h
  · rename_i h1
    split at h
    · cases h
    · rename_i h2
      refine ⟨by simpa using h1, ?_, by omega⟩
      split at h <;> (cases h; rfl)

/-- **C208** The service is asked only when half of the time of a token that it has granted has gone. -/
theorem renewed_when_stale {d : Int} {t₀ : String} {g₀ c₀ : Int} {l : List Ev} {now : Int} {t : String} {a : Answer} (h : .renewal now t a ∈ (rounds d (start d t₀ c₀) l).2) :
    ∃ g c, Granted t₀ g₀ c₀ l t g c ∧ c + d < now + d / 2 := by
  obtain ⟨l₁, e, l₂, rfl, ho⟩ := mem_rounds l h
  have hs : (start d t₀ c₀).Has d t₀ g₀ c₀ [] := fun _ => ⟨g₀, c₀, .inl ⟨rfl, rfl, rfl⟩, rfl⟩
  have hh : (rounds d (start d t₀ c₀) l₁).1.Has d t₀ g₀ c₀ l₁ := by simpa using rounds_has l₁ hs
  generalize (rounds d (start d t₀ c₀) l₁).1 = s at ho hh
  rcases mem_round ho with ⟨t', h1, e1⟩ | ⟨-, ⟨-, e1⟩ | ⟨err, -, e1⟩⟩
  · cases e1
    obtain ⟨h2, rfl, h3⟩ := renew_none h1
    obtain ⟨g, c, h4, h5⟩ := hh h2
    refine ⟨g, c, ?_, by omega⟩
    rcases h4 with h4 | ⟨x, hx, h4⟩
    · exact .inl h4
    · exact .inr ⟨x, by simp [hx], h4⟩
  · cases e1
  · cases e1

/-- **C208** After a renewal has failed, every request is refused with that error, and the service is not asked again. -/
theorem failed_for_good {d : Int} {s : Lease} {err : String} (h : s.error = some err) (l : List Ev) : (rounds d s l).1 = s ∧ ∀ o ∈ (rounds d s l).2, ∃ now, o = .refused now err := by
  induction l with
  | nil => exact ⟨rfl, fun o ho => by cases ho⟩
  | cons e l ih =>
    have hr : renew d s e = (s, none) := by unfold renew; rw [h]; simp
    have h1 : (round d s e).1 = s := by
      unfold round
      simp only [hr, h]
      split <;> rfl
    rw [rounds_cons, h1]
    refine ⟨ih.1, fun o ho => ?_⟩
    rcases List.mem_append.mp ho with ho | ho
    · rcases mem_round ho with ⟨t, h2, -⟩ | ⟨-, ⟨h2, -⟩ | ⟨err', h2, h3⟩⟩
      · rw [hr] at h2; cases h2
      · rw [hr, h] at h2; cases h2
      · rw [hr, h] at h2
        cases h2
        exact ⟨_, h3⟩
    · exact ih.2 o ho

/-- What may be seen when `cur` is the newest token: only that one is given and renewed, a renewal makes the token that comes the newest one, and after a renewal that fails every request is
refused with that error and nothing is renewed. -/
def Proper : String → List Seen → Prop
  | _, [] => True
  | cur, .renewal _ t (.token t' _ _) :: l => t = cur ∧ Proper t' l
  | cur, .renewal _ t (.error e) :: l => t = cur ∧ ∀ o ∈ l, ∃ now, o = .refused now ("renewing lease: " ++ e)
  | cur, .given _ t :: l => t = cur ∧ Proper cur l
  | _, .refused _ _ :: _ => False

/-- **C208** What is given and renewed is always the newest token, and an error is for good. -/
theorem newest_token {d : Int} {s : Lease} (h : s.error = none) (l : List Ev) : Proper s.token (rounds d s l).2 := by
  induction l generalizing s with
  | nil => trivial
  | cons e l ih =>
    rw [rounds_cons]
    by_cases hst : e.now + d / 2 > s.expires
    · cases ha : e.answer with
      | token t g c =>
        have hr : renew d s e = (⟨t, c + d, none⟩, some s.token) := by unfold renew; simp [h, hst, ha]
        have ih' := ih (s := ⟨t, c + d, none⟩) rfl
        unfold round
        cases e.request <;> simp [hr, ha, Proper] <;> exact ih'
      | error err =>
        have hr : renew d s e = ({ s with error := some ("renewing lease: " ++ err) }, some s.token) := by unfold renew; simp [h, hst, ha]
        have hf := (failed_for_good (d := d) (s := { s with error := some ("renewing lease: " ++ err) }) rfl l).2
        unfold round
        cases e.request <;> simp [hr, ha, Proper] <;> exact hf
    · have hr : renew d s e = (s, none) := by unfold renew; rw [h]; simp; intro h'; exact absurd h' hst
      have ih' := ih h
      unfold round
      cases e.request <;> simp [hr, h, Proper] <;> exact ih'

/-- **C208** Every request is answered, once and in order. -/
theorem every_request_answered (d : Int) (s : Lease) (l : List Ev) :
    ((rounds d s l).2.filterMap fun o => match o with | .renewal _ _ _ => none | .given now _ => some now | .refused now _ => some now) = (l.filter (·.request)).map (·.now) := by
  induction l generalizing s with
  | nil => rfl
  | cons e l ih =>
    rw [rounds_cons]
    simp only [List.filterMap_append, ih]
    unfold round
    simp only
    cases hq : e.request with
    | true =>
      simp only [if_true, List.filter_cons, hq, List.map_cons]
      cases (renew d s e).2 <;> cases (renew d s e).1.error <;> simp
    | false =>
      simp only [Bool.false_eq_true, if_false, List.filter_cons, hq]
      cases (renew d s e).2 <;> simp

/-- A request in the first half of the lease, a tick in the second half, which renews it, and a request that comes too late for the next renewal: it fails, and so do all that follow. -/
example : (rounds 300 (start 300 "t0" 0) [⟨true, 100, .error "-"⟩, ⟨false, 151, .token "t1" 152 160⟩, ⟨true, 200, .error "-"⟩, ⟨true, 400, .error "gone"⟩, ⟨true, 401, .token "t2" 402 403⟩]).2 =
    [.given 100 "t0", .renewal 151 "t0" (.token "t1" 152 160), .given 200 "t1", .renewal 400 "t1" (.error "gone"), .refused 400 "renewing lease: gone", .refused 401 "renewing lease: gone"] := by decide +kernel

end Pulumi.Service
