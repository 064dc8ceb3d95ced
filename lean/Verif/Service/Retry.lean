/-
How a request to the service is sent, and sent again.

Code: sdk/go/common/util/retry/until.go:44-91 (`Until`), sdk/go/common/util/httputil/http.go:54-107 (`doWithRetry`),
pkg/backend/httpstate/client/api.go:138-154 (`defaultHTTPClient.Do`), 157-281 (`pulumiAPICall`, what it makes of the answer).

The server and the network are the answers to the attempts, by their number.  Waiting is recorded, not done.  The context
`Until` is given here is never done (http.go:100).  Multiplying a delay by the backoff is a function, `scale`, that stands
for the multiplication of floating point numbers and the cut to a whole number of nanoseconds.  The endless loop of `Until`
is given `fuel`; it is proved that requests come to an end before it is used up.
-/
namespace Pulumi.Service.Retry

/-- What comes of one attempt: no response, or a response with a status -/
inductive Answer where
  | noResponse (e : String)
  | response (status : Nat)
  deriving DecidableEq

/-- What the request is: its body, the part of it that was not read yet, whether it can be had again, and which attempts to
get it again fail -/
structure Request where
  method : String
  body : List UInt8
  rewindable : Bool
  rewindFails : Nat → Option String

/-- What happened: the bodies sent, the waits, the responses that were closed, and what is left of the body's reader -/
structure Log where
  sent : List (List UInt8)
  waits : List Nat
  closed : List Nat
  reader : List UInt8

/-- How the acceptor of `doWithRetry` ends (http.go:76-97): done with the answer, done with an error of `GetBody`, or not
done -/
inductive Verdict where
  | done (a : Answer)
  | failed (e : String)
  | again

/-- The status tells of a failure of the server (http.go:58-60, 87) -/
def serverError (status : Nat) : Bool := decide (500 ≤ status) && decide (status ≤ 599)

/-- `client.Do`: all of the reader is sent and read -/
def send (log : Log) : Log := { log with sent := log.sent ++ [log.reader], reader := [] }

/-- `Accept` (http.go:76-97) -/
def accept (req : Request) (answers : Nat → Answer) (maxTries : Int) (try_ : Nat) (log : Log) : Verdict × Log :=
  let rewound : Except String Log :=
    if decide (try_ > 0) && req.rewindable then
      match req.rewindFails try_ with
      | some e => .error e
      | none => .ok { log with reader := req.body }
    else .ok log
  match rewound with
  | .error e => (.failed e, log)
  | .ok log =>
    let log := send log
    match answers try_ with
    | .response s =>
      if !serverError s then (.done (.response s), log)
      else if (try_ : Int) ≥ maxTries - 1 then (.done (.response s), log)
      else (.again, { log with closed := log.closed ++ [try_] })
    | .noResponse e =>
      if (try_ : Int) ≥ maxTries - 1 then (.done (.noResponse e), log)
      else (.again, log)

/-- the delays: the first, how each comes from the one before, and the longest (until.go:46-63) -/
structure Delays where
  first : Nat
  scale : Nat → Nat
  longest : Nat

/-- `Until` (66-90); `none` where the fuel is used up -/
def until_ (d : Delays) (acc : Nat → Log → Verdict × Log) : Nat → Nat → Nat → Log → Option (Verdict × Log)
  | 0, _, _, _ => none
  | fuel + 1, try_, delay, log =>
    let delay := if d.scale delay > d.longest then d.longest else d.scale delay
    match acc try_ log with
    | (.again, log) => until_ d acc fuel (try_ + 1) delay { log with waits := log.waits ++ [delay] }
    | r => some r

/-- how a call ends -/
inductive Result where
  | response (status : Nat)
  | error (e : String)
  deriving DecidableEq

def Verdict.result : Verdict → Result
  | .done (.response s) => .response s
  | .done (.noResponse e) => .error e
  | .failed e => .error e
  | .again => .error ""

/-- `doWithRetry` (54-107); `none` where the assertion fails that the body can be had again -/
def doWithRetry (fuel : Nat) (d : Delays) (maxTries : Int) (req : Request) (answers : Nat → Answer) : Option (Result × Log) :=
  if req.body ≠ [] ∧ req.rewindable = false then none
  else (until_ d (accept req answers maxTries) fuel 0 d.first
    { sent := [], waits := [], closed := [], reader := req.body }).map (fun r => (r.1.result, r.2))

/-- The delays of calls to the service, in milliseconds (api.go:143-150) -/
def apiDelays : Delays := { first := 1000, scale := fun n => n * 2, longest := 30000 }

/-- `defaultHTTPClient.Do` (138-154) -/
def clientDo (req : Request) (retryAll : Bool) (answers : Nat → Answer) : Option (Result × Log) :=
  if req.method == "GET" || retryAll then doWithRetry 5 apiDelays 4 req answers
  else
    let log := send { sent := [], waits := [], closed := [], reader := req.body }
    some ((Verdict.done (answers 0)).result, log)

/-- What the body of an answer that tells of an error holds: no JSON object of the kind, or one, with its code (0 where it
has none) -/
inductive ErrorBody where
  | text (s : String)
  | json (code : Nat) (message : String)

/-- How `pulumiAPICall` ends -/
inductive Call where
  | ok (status : Nat)
  | transport (e : String)
  | login
  | rateLimit
  | refused (code : Nat) (message : String)
  deriving DecidableEq

/-- `pulumiAPICall` from where there is an answer (228-281); `anonymous` is that there is no token and one of the user is
needed (248) -/
def outcome (anonymous : Bool) (body : ErrorBody) : Result → Call
  | .error e => .transport e
  | .response s =>
    if decide (s = 401) && anonymous then .login
    else if s = 429 then .rateLimit
    else if decide (s ≥ 400) && decide (s ≤ 599) then
      match body with
      | .text t => .refused s t
      | .json c m => .refused c m
    else .ok s

/-! ## Specification -/

/-- An attempt that is worth another -/
def Failed : Answer → Prop
  | .noResponse _ => True
  | .response s => 500 ≤ s ∧ s ≤ 599

instance : DecidablePred Failed := fun a => by cases a <;> unfold Failed <;> infer_instance

/-- the result an attempt stands for -/
def Answer.result : Answer → Result
  | .response s => .response s
  | .noResponse e => .error e

/-- whether there was a response -/
def Answer.isResponse : Answer → Bool
  | .response _ => true
  | .noResponse _ => false

/-! ## Lemmas -/

theorem serverError_iff (s : Nat) : serverError s = true ↔ 500 ≤ s ∧ s ≤ 599 := by
  simp [serverError]

/-- where nothing keeps the body from being had again -/
def Rewinds (req : Request) : Prop := (req.body = [] ∨ req.rewindable = true) ∧ ∀ n, req.rewindFails n = none

/-- what the log is before attempt `n` -/
structure Before (req : Request) (answers : Nat → Answer) (n : Nat) (log : Log) : Prop where
  sent : log.sent = List.replicate n req.body
  failed : ∀ i < n, Failed (answers i)
  closed : log.closed = (List.range n).filter (fun i => (answers i).isResponse)
  reader : n = 0 → log.reader = req.body
  empty : req.body = [] → log.reader = []

theorem accept_spec (req : Request) (answers : Nat → Answer) (maxTries : Int) (n : Nat) (log : Log)
    (hr : Rewinds req) (hb : Before req answers n log) :
    (¬ Failed (answers n) ∨ (n : Int) ≥ maxTries - 1) ∧
      (∃ log', accept req answers maxTries n log = (.done (answers n), log') ∧
        log'.sent = List.replicate (n + 1) req.body ∧ log'.closed = log.closed ∧ log'.waits = log.waits) ∨
    (Failed (answers n) ∧ (n : Int) < maxTries - 1) ∧
      (∃ log', accept req answers maxTries n log = (.again, log') ∧ log'.waits = log.waits ∧
        Before req answers (n + 1) log') := by
  have hrew : (if decide (n > 0) && req.rewindable then
      match req.rewindFails n with
      | some e => Except.error e
      | none => Except.ok { log with reader := req.body }
    else Except.ok log) = (Except.ok { log with reader := req.body } : Except String Log) := by
    by_cases hc : (decide (n > 0) && req.rewindable) = true
    · rw [if_pos hc, hr.2 n]
    · rw [if_neg hc]
      congr 1
      have : log.reader = req.body := by
        simp only [Bool.and_eq_true, decide_eq_true_eq, not_and, Bool.not_eq_true] at hc
        by_cases hn : n > 0
        · rcases hr.1 with hbd | hrw
          · rw [hb.empty hbd, hbd]
          · rw [hc hn] at hrw; cases hrw
        · exact hb.reader (by omega)
      rw [← this]
  have hsent : log.sent ++ [req.body] = List.replicate (n + 1) req.body := by
    rw [hb.sent, List.replicate_succ']
  unfold accept
  simp only [hrew, send]
  cases ha : answers n with
  | response s =>
    by_cases hs : serverError s = true
    · have hf : Failed (answers n) := by rw [ha]; exact (serverError_iff s).mp hs
      by_cases hl : (n : Int) ≥ maxTries - 1
      · refine Or.inl ⟨Or.inr hl, { sent := log.sent ++ [req.body], waits := log.waits, closed := log.closed, reader := [] }, ?_, hsent, rfl, rfl⟩
        simp only [hs, Bool.not_true, Bool.false_eq_true, if_false, hl, if_true]
      · refine Or.inr ⟨⟨ha ▸ hf, by omega⟩, { sent := log.sent ++ [req.body], waits := log.waits, closed := log.closed ++ [n], reader := [] }, ?_, rfl, ?_⟩
        · simp only [hs, Bool.not_true, Bool.false_eq_true, if_false, hl]
        · refine ⟨hsent, ?_, ?_, by omega, fun _ => rfl⟩
          · intro i hi
            by_cases hin : i = n
            · rw [hin]; exact hf
            · exact hb.failed i (by omega)
          · simp only [hb.closed, List.range_succ, List.filter_append]
            simp [ha, Answer.isResponse]
    · refine Or.inl ⟨Or.inl ?_, { sent := log.sent ++ [req.body], waits := log.waits, closed := log.closed, reader := [] }, ?_, hsent, rfl, rfl⟩
      · exact fun hh => hs ((serverError_iff s).mpr hh)
      · simp [hs]
  | noResponse e =>
    have hf : Failed (answers n) := by rw [ha]; trivial
    by_cases hl : (n : Int) ≥ maxTries - 1
    · refine Or.inl ⟨Or.inr hl, { sent := log.sent ++ [req.body], waits := log.waits, closed := log.closed, reader := [] }, ?_, hsent, rfl, rfl⟩
      simp only [hl, if_true]
    · refine Or.inr ⟨⟨ha ▸ hf, by omega⟩, { sent := log.sent ++ [req.body], waits := log.waits, closed := log.closed, reader := [] }, ?_, rfl, ?_⟩
      · simp only [hl, if_false]
      · refine ⟨hsent, ?_, ?_, by omega, fun _ => rfl⟩
        · intro i hi
          by_cases hin : i = n
          · rw [hin]; exact hf
          · exact hb.failed i (by omega)
        · simp only [hb.closed, List.range_succ, List.filter_append]
          simp [ha, Answer.isResponse]

/-- the wait before attempt `n + 1` -/
def wait (d : Delays) : Nat → Nat
  | 0 => min (d.scale d.first) d.longest
  | n + 1 => min (d.scale (wait d n)) d.longest

/-- the delay `Until` holds before attempt `n` -/
def held (d : Delays) : Nat → Nat
  | 0 => d.first
  | n + 1 => wait d n

theorem next_held (d : Delays) (n : Nat) :
    (if d.scale (held d n) > d.longest then d.longest else d.scale (held d n)) = held d (n + 1) := by
  have : ∀ x, (if x > d.longest then d.longest else x) = min x d.longest := by
    intro x
    by_cases h : x > d.longest
    · rw [if_pos h]; omega
    · rw [if_neg h]; omega
  rw [this]
  cases n <;> rfl

/-- The attempts made: the first that is not worth another, or the last that is allowed. -/
structure Ended (req : Request) (answers : Nat → Answer) (maxTries : Int) (d : Delays) (n : Nat) (log : Log) : Prop where
  earlier : ∀ i < n, Failed (answers i)
  last : ¬ Failed (answers n) ∨ (n : Int) ≥ maxTries - 1
  within : n = 0 ∨ (n : Int) ≤ maxTries - 1
  sent : log.sent = List.replicate (n + 1) req.body
  closed : log.closed = (List.range n).filter (fun i => (answers i).isResponse)
  waits : log.waits = (List.range n).map (wait d)

theorem until_spec (req : Request) (answers : Nat → Answer) (maxTries : Int) (d : Delays) (hr : Rewinds req)
    (fuel n : Nat) (log : Log) (hb : Before req answers n log) (hw : log.waits = (List.range n).map (wait d))
    (hn : n = 0 ∨ (n : Int) ≤ maxTries - 1) (hfuel : (fuel : Int) + n ≥ max 1 maxTries) (hpos : fuel ≠ 0) :
    ∃ m log', until_ d (accept req answers maxTries) fuel n (held d n) log = some (.done (answers m), log') ∧
      Ended req answers maxTries d m log' := by
  induction fuel generalizing n log with
  | zero => exact absurd rfl hpos
  | succ fuel ih =>
    unfold until_
    simp only [next_held]
    rcases accept_spec req answers maxTries n log hr hb with ⟨hend, log', he, hs, hc, hwt⟩ | ⟨⟨hf, hlt⟩, log', he, hwt, hb'⟩
    · rw [he]
      exact ⟨n, log', rfl, ⟨hb.failed, hend, hn, hs, by rw [hc, hb.closed], by rw [hwt, hw]⟩⟩
    · rw [he]
      simp only
      have hw' : ({ log' with waits := log'.waits ++ [held d (n + 1)] } : Log).waits = (List.range (n + 1)).map (wait d) := by
        simp [hwt, hw, List.range_succ, held]
      refine ih (n + 1) _ ⟨hb'.sent, hb'.failed, hb'.closed, hb'.reader, hb'.empty⟩ hw' (Or.inr (by omega)) ?_ ?_
      · omega
      · intro hz
        subst hz
        omega

/-! ## What a user relies on -/

/-- A request is sent again as long as there is no response or the server fails, and not more often than allowed; what comes
back is the answer to the last attempt.  Each attempt sends the whole body, the responses that are not given back are closed,
and before each further attempt there is a wait. -/
theorem retries (d : Delays) (maxTries : Int) (req : Request) (answers : Nat → Answer) (hr : Rewinds req)
    (fuel : Nat) (hfuel : (fuel : Int) ≥ max 1 maxTries) :
    ∃ n log, doWithRetry fuel d maxTries req answers = some ((answers n).result, log) ∧
      (n + 1 : Int) ≤ max 1 maxTries ∧
      (∀ i < n, Failed (answers i)) ∧
      (Failed (answers n) → (n + 1 : Int) = max 1 maxTries) ∧
      log.sent = List.replicate (n + 1) req.body ∧
      (∀ i, i ∈ log.closed ↔ i < n ∧ (answers i).isResponse = true) ∧
      log.waits.length = n := by
  have hb : Before req answers 0 { sent := [], waits := [], closed := [], reader := req.body } :=
    ⟨rfl, fun i hi => by omega, rfl, fun _ => rfl, fun h => h⟩
  obtain ⟨n, log, he, hend⟩ := until_spec req answers maxTries d hr fuel 0
    { sent := [], waits := [], closed := [], reader := req.body } hb rfl (Or.inl rfl) (by omega) (by omega)
  refine ⟨n, log, ?_, ?_, hend.earlier, ?_, hend.sent, ?_, by rw [hend.waits]; simp⟩
  · unfold doWithRetry
    have : ¬ (req.body ≠ [] ∧ req.rewindable = false) := by
      rintro ⟨h₁, h₂⟩
      rcases hr.1 with h | h
      · exact h₁ h
      · rw [h₂] at h; cases h
    rw [if_neg this]
    have he' : until_ d (accept req answers maxTries) fuel 0 d.first
        { sent := [], waits := [], closed := [], reader := req.body } = some (.done (answers n), log) := he
    rw [he', Option.map_some]
    cases answers n <;> rfl
  · rcases hend.within with h | h <;> omega
  · intro hf
    rcases hend.last with h | h
    · exact absurd hf h
    · rcases hend.within with h' | h' <;> omega
  · intro i
    rw [hend.closed]
    simp

/-- The waits: none is longer than the longest. -/
theorem waits_are_bounded (d : Delays) (maxTries : Int) (req : Request) (answers : Nat → Answer) (hr : Rewinds req)
    (fuel : Nat) (hfuel : (fuel : Int) ≥ max 1 maxTries) (r : Result) (log : Log)
    (h : doWithRetry fuel d maxTries req answers = some (r, log)) :
    (∀ w ∈ log.waits, w ≤ d.longest) ∧
    ((∀ n, n ≤ d.scale n) → log.waits.Pairwise (· ≤ ·)) := by
  have hb : Before req answers 0 { sent := [], waits := [], closed := [], reader := req.body } :=
    ⟨rfl, fun i hi => by omega, rfl, fun _ => rfl, fun h => h⟩
  obtain ⟨n, log', he, hend⟩ := until_spec req answers maxTries d hr fuel 0
    { sent := [], waits := [], closed := [], reader := req.body } hb rfl (Or.inl rfl) (by omega) (by omega)
  have hlog : log = log' := by
    unfold doWithRetry at h
    split at h
    · cases h
    · have he' : until_ d (accept req answers maxTries) fuel 0 d.first
          { sent := [], waits := [], closed := [], reader := req.body } = some (.done (answers n), log') := he
      rw [he', Option.map_some] at h
      cases h
      rfl
  have hle : ∀ i, wait d i ≤ d.longest := by
    intro i
    cases i <;> (unfold wait; omega)
  rw [hlog, hend.waits]
  refine ⟨?_, ?_⟩
  · intro w hw
    obtain ⟨i, _, hi⟩ := List.mem_map.mp hw
    rw [← hi]
    exact hle i
  · intro hmono
    have step : ∀ i, wait d i ≤ wait d (i + 1) := by
      intro i
      have h₁ := hle i
      have h₂ := hmono (wait d i)
      show wait d i ≤ min (d.scale (wait d i)) d.longest
      omega
    have mono : ∀ i j, i ≤ j → wait d i ≤ wait d j := by
      intro i j hij
      induction j with
      | zero => rw [Nat.le_zero.mp hij]; exact Nat.le_refl _
      | succ j ih =>
        by_cases hj : i = j + 1
        · rw [hj]; exact Nat.le_refl _
        · exact Nat.le_trans (ih (by omega)) (step j)
    rw [List.pairwise_map]
    exact List.Pairwise.imp (fun hij => mono _ _ (Nat.le_of_lt hij)) List.pairwise_lt_range

/-- Each wait is the one before it times the backoff, or the longest where that is less. -/
theorem waits_grow (d : Delays) (maxTries : Int) (req : Request) (answers : Nat → Answer) (hr : Rewinds req)
    (fuel : Nat) (hfuel : (fuel : Int) ≥ max 1 maxTries) (r : Result) (log : Log)
    (h : doWithRetry fuel d maxTries req answers = some (r, log)) (i a b : Nat)
    (ha : log.waits[i]? = some a) (hb : log.waits[i + 1]? = some b) : b = min (d.scale a) d.longest := by
  have hbf : Before req answers 0 { sent := [], waits := [], closed := [], reader := req.body } :=
    ⟨rfl, fun i hi => by omega, rfl, fun _ => rfl, fun h => h⟩
  obtain ⟨n, log', he, hend⟩ := until_spec req answers maxTries d hr fuel 0
    { sent := [], waits := [], closed := [], reader := req.body } hbf rfl (Or.inl rfl) (by omega) (by omega)
  have hlog : log = log' := by
    unfold doWithRetry at h
    split at h
    · cases h
    · have he' : until_ d (accept req answers maxTries) fuel 0 d.first
          { sent := [], waits := [], closed := [], reader := req.body } = some (.done (answers n), log') := he
      rw [he', Option.map_some] at h
      cases h
      rfl
  rw [hlog, hend.waits, List.getElem?_map] at ha hb
  simp only [Option.map_eq_some_iff] at ha hb
  obtain ⟨x, hx, hxa⟩ := ha
  obtain ⟨y, hy, hyb⟩ := hb
  have hx' : i = x := by
    rw [List.getElem?_eq_some_iff] at hx
    obtain ⟨_, hx⟩ := hx
    simpa using hx
  have hy' : i + 1 = y := by
    rw [List.getElem?_eq_some_iff] at hy
    obtain ⟨_, hy⟩ := hy
    simpa using hy
  subst hx'
  subst hy'
  rw [← hyb, ← hxa]
  rfl

/-- A call to the service that is no GET, and is not marked as one that may be repeated, is sent once, whatever comes of
it. -/
theorem others_are_sent_once (req : Request) (answers : Nat → Answer) (h : req.method ≠ "GET") :
    ∃ log, clientDo req false answers = some ((answers 0).result, log) ∧ log.sent = [req.body] ∧ log.waits = [] := by
  unfold clientDo
  have : (req.method == "GET" || false) = false := by simp [h]
  simp only [this, Bool.false_eq_true, if_false]
  refine ⟨{ sent := [req.body], waits := [], closed := [], reader := [] }, ?_, rfl, rfl⟩
  cases answers 0 <;> rfl

/-- Other calls to the service are sent at most four times: until there is a response that does not tell of a failure of the
server. -/
theorem calls_are_sent_at_most_four_times (req : Request) (retryAll : Bool) (answers : Nat → Answer) (hr : Rewinds req)
    (h : req.method = "GET" ∨ retryAll = true) :
    ∃ n log, clientDo req retryAll answers = some ((answers n).result, log) ∧ n < 4 ∧
      (∀ i < n, Failed (answers i)) ∧ (Failed (answers n) → n = 3) ∧ log.sent = List.replicate (n + 1) req.body := by
  have hc : (req.method == "GET" || retryAll) = true := by
    rcases h with h | h <;> simp [h]
  obtain ⟨n, log, he, h₁, h₂, h₃, h₄, _⟩ := retries apiDelays 4 req answers hr 5 (by omega)
  refine ⟨n, log, ?_, by omega, h₂, fun hf => ?_, h₄⟩
  · unfold clientDo
    rw [if_pos hc]
    exact he
  · have := h₃ hf
    omega

/-- A call succeeds exactly where the last answer is a response that tells of no error. -/
theorem call_succeeds_iff (anonymous : Bool) (body : ErrorBody) (r : Result) (s : Nat) :
    outcome anonymous body r = .ok s ↔ r = .response s ∧ ¬ (400 ≤ s ∧ s ≤ 599) := by
  cases r with
  | error e => simp [outcome]
  | response t =>
    unfold outcome
    simp only [Result.response.injEq]
    by_cases h₁ : (decide (t = 401) && anonymous) = true
    · rw [if_pos h₁]
      simp only [Bool.and_eq_true, decide_eq_true_eq] at h₁
      simp only [reduceCtorEq, false_iff]
      omega
    · rw [if_neg h₁]
      by_cases h₂ : t = 429
      · rw [if_pos h₂]
        simp only [reduceCtorEq, false_iff]
        omega
      · rw [if_neg h₂]
        by_cases h₃ : (decide (t ≥ 400) && decide (t ≤ 599)) = true
        · rw [if_pos h₃]
          simp only [Bool.and_eq_true, decide_eq_true_eq] at h₃
          cases body <;> (simp only [reduceCtorEq, false_iff]; omega)
        · rw [if_neg h₃]
          simp only [Bool.and_eq_true, decide_eq_true_eq] at h₃
          simp only [Call.ok.injEq]
          omega

/-- An error that is no JSON is reported with the status of the response. -/
theorem error_text_has_status (anonymous : Bool) (t : String) (s : Nat) (h : 400 ≤ s ∧ s ≤ 599) (h₁ : s ≠ 401) (h₂ : s ≠ 429) :
    outcome anonymous (.text t) (.response s) = .refused s t := by
  unfold outcome
  simp [h₁, h₂, h.1, h.2]

/-! ### Cases -/

/-- A request to renew a lease -/
def renew : Request := { method := "POST", body := [1, 2], rewindable := true, rewindFails := fun _ => none }

/-- The server fails, then nothing comes, then it answers. -/
def bumpy : Nat → Answer
  | 0 => .response 503
  | 1 => .noResponse "reset"
  | _ => .response 200

example : Rewinds renew := ⟨Or.inr rfl, fun _ => rfl⟩
example : ∃ log, clientDo renew true bumpy = some (.response 200, log) ∧ log.sent = [[1, 2], [1, 2], [1, 2]] ∧
    log.closed = [0] ∧ log.waits = [2000, 4000] := ⟨_, rfl, by decide, by decide, by decide⟩
example : ∃ log, clientDo renew false bumpy = some (.response 503, log) ∧ log.sent = [[1, 2]] := ⟨_, rfl, by decide⟩
example : renew.method ≠ "GET" := by decide
example : outcome false (.text "no such stack") (.response 404) = .refused 404 "no such stack" := by decide
example : ∀ n, n ≤ apiDelays.scale n := fun n => by simp only [apiDelays]; omega

/-! ## Where it goes wrong -/

/-- "Wait 1s before retrying on failure" (api.go:140): the delay is multiplied before it is first used, so it waits 2 s. -/
theorem first_wait_is_not_the_delay (req : Request) (answers : Nat → Answer) (hr : Rewinds req) (h : req.method = "GET")
    (hf : Failed (answers 0)) :
    ∃ r log w, clientDo req false answers = some (r, log) ∧ log.waits.head? = some w ∧ w = 2 * apiDelays.first := by
  have hb : Before req answers 0 { sent := [], waits := [], closed := [], reader := req.body } :=
    ⟨rfl, fun i hi => by omega, rfl, fun _ => rfl, fun h => h⟩
  obtain ⟨n, log, he, hend⟩ := until_spec req answers 4 apiDelays hr 5 0
    { sent := [], waits := [], closed := [], reader := req.body } hb rfl (Or.inl rfl) (by omega) (by omega)
  have hn : n ≠ 0 := by
    intro hz
    subst hz
    rcases hend.last with h | h
    · exact h hf
    · omega
  refine ⟨(Verdict.done (answers n)).result, log, wait apiDelays 0, ?_, ?_, by decide⟩
  · unfold clientDo doWithRetry
    have hnot : ¬ (req.body ≠ [] ∧ req.rewindable = false) := by
      rintro ⟨h₁, h₂⟩
      rcases hr.1 with h | h
      · exact h₁ h
      · rw [h₂] at h; cases h
    have hg : (req.method == "GET" || false) = true := by simp [h]
    rw [if_pos hg, if_neg hnot]
    have he' : until_ apiDelays (accept req answers 4) 5 0 apiDelays.first
        { sent := [], waits := [], closed := [], reader := req.body } = some (.done (answers n), log) := he
    rw [he']
    rfl
  · rw [hend.waits]
    cases n with
    | zero => exact absurd rfl hn
    | succ n => simp [List.range_succ_eq_map]

/-- An error that is JSON without a code is reported with code 0, whatever the status: those who look for 404 or 409 do not
find it. -/
theorem error_without_code_loses_status : ∃ (s : Nat) (body : ErrorBody), 400 ≤ s ∧ s ≤ 599 ∧
    outcome false body (.response s) = .refused 0 "no such stack" :=
  ⟨404, .json 0 "no such stack", by decide, by decide, by decide⟩

end Pulumi.Service.Retry
