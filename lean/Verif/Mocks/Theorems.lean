import Verif.Mocks.Invariant
import Verif.Mocks.NoOutput
import Verif.Wire.Theorems
/-!
# C72–C75: testing with mocks
-/
namespace Pulumi.Mocks
open Pulumi.Wire (PV W Env)
open Pulumi.Urn (Text CleanField CleanType CleanName)

/-! ## C72 -/

theorem deserialize_urn (env : Env) {u : Text} (h : String.ofList u ≠ Wire.UNKNOWN) :
    deserialize env [("urn", .str (String.ofList u))] = .ok (.dict [("urn", .str (String.ofList u))]) := by
  have hs : List.lookup Wire.sigKey [("urn", W.str (String.ofList u))] = none := by
    simp [List.lookup, Wire.sigKey]
  have hi : Wire.isInternal "urn" = false := by decide
  simp [deserialize, Wire.deserializeProperties, Wire.desStruct, hs, Wire.desKvs, Wire.collect, Wire.des,
    Wire.desStr, h, hi, Wire.isNone, Except.map]

theorem invoke_get (s : Setup) (st : State) {q : InvokeRequest} {args : PV} (ht : q.tok = getResourceTok)
    (hd : deserialize s.env q.args = .ok args) : invoke s st q = (st, getResource s st args) := by
  rw [invoke, hd]
  simp only
  rw [if_pos ht]

theorem getResource_found (s : Setup) (st : State) {args : PV} {r : Registration} {ret : List (String × W)}
    (hf : findUrn st args = .ok (some r)) (hs : serialize s.env r.asDict = .ok ret) :
    getResource s st args = .ok { ret := ret, failures := [] } := by
  rw [getResource, hf]
  simp only [hs]

theorem getResource_missing (s : Setup) (st : State) {args : PV} (hf : findUrn st args = .ok none) :
    getResource s st args = .error .unknownResource := by
  rw [getResource, hf]

theorem findUrn_text (st : State) (u : Text) :
    findUrn st (.dict [("urn", .str (String.ofList u))]) = .ok (st.resources.lookup u) := by
  simp [findUrn, List.lookup]

theorem invoke_lookup (s : Setup) (st : State) (u provider : Text) (h : String.ofList u ≠ Wire.UNKNOWN) :
    (invoke s st (lookupRequest u provider)).2 =
      getResource s st (.dict [("urn", .str (String.ofList u))]) :=
  congrArg Prod.snd (invoke_get s st rfl (deserialize_urn s.env h))

/-- **C72.** At any point of any history of overlapping requests, let the last answer that gave the URN `u` be `r`.
Looking `u` up gives `u`, the id that the mocks returned for that request, and properties that read, in any
environment, exactly like the properties of `r`. -/
theorem lookup_registered (s : Setup) (ht : s.env.transform = none) (hd : s.Dicts) (es : List Event)
    {l1 l2 : List (Request × Response)} {q : Request} {x : Asked} {r : ResourceResponse}
    (hlog : (run s .init es).log = l1 ++ (q, .resource r) :: l2) (hq : q.asked = some x)
    (hl : ∀ y ∈ l2, ¬ Gives r.urn y) (provider : Text) :
    ∃ id state ret kvs, Gave s (run s .init es).st.seen x id state ∧ Conveys s x id state r ∧
      (invoke s (run s .init es).st (lookupRequest r.urn provider)).2 = .ok { ret := ret, failures := [] } ∧
      ret.lookup "urn" = some (.str (String.ofList r.urn)) ∧ ret.lookup "id" = id.map .str ∧
      ret.lookup "state" = some (.struct kvs) ∧
      ∀ env keep ki, Wire.deserializeProperties env keep ki kvs = Wire.deserializeProperties env keep ki r.object := by
  have hinv := run_inv s es
  have hg : Gives r.urn (q, .resource r) := ⟨by rw [hq]; simp, r, rfl, rfl⟩
  cases hreg : (run s .init es).st.resources.lookup r.urn with
  | none => exact absurd hg (hinv.absent _ hreg _ (by rw [hlog]; simp))
  | some reg =>
    obtain ⟨hu, m1, m2, q', r', x', h1, h2, h3, h4, h5, h6⟩ := hinv.table _ _ hreg
    have he := last_unique (P := Gives r.urn) (hlog.symm.trans h1) hg ⟨by rw [h2]; simp, r', rfl, h3⟩ hl h6
    simp only [Prod.mk.injEq, Response.resource.injEq] at he
    obtain ⟨rfl, rfl⟩ := he
    rw [hq] at h2
    cases h2
    obtain ⟨inputs, _, b, a, _, hm⟩ := id h4
    obtain ⟨hn, hs⟩ := hd _ _ _ _ hm
    obtain ⟨ret, kvs, k1, k2, k3, k4, k5⟩ := serialize_reg ht h5.object hn hs
    refine ⟨reg.id, reg.state, ret, kvs, h4, h5, ?_, by rw [k2, hu], k3, k4, k5⟩
    rw [invoke_lookup _ _ _ _ (makeUrn_ne_unknown h5.urn)]
    exact getResource_found s _ (by rw [findUrn_text, hreg]) k1

/-- **C72.** Looking up a URN that no answer has given fails. -/
theorem lookup_unknown (s : Setup) (es : List Event) {u : Text} (hu : String.ofList u ≠ Wire.UNKNOWN)
    (h : ∀ y ∈ (run s .init es).log, ¬ Gives u y) (provider : Text) :
    (invoke s (run s .init es).st (lookupRequest u provider)).2 = .error .unknownResource := by
  have hinv := run_inv s es
  rw [invoke_lookup _ _ _ _ hu]
  cases hreg : (run s .init es).st.resources.lookup u with
  | none => exact getResource_missing s _ (by rw [findUrn_text, hreg])
  | some reg =>
    obtain ⟨_, m1, m2, q, r, x, h1, h2, h3, _⟩ := hinv.table _ _ hreg
    exact absurd ⟨by rw [h2]; simp, r, rfl, h3⟩ (h (q, .resource r) (by rw [h1]; simp))

/-- A monitor whose mocks number the resources. -/
def sampleSetup : Setup where
  amb := { stack := "dev".toList, project := "proj".toList }
  env := { Wire.sampleEnv with outputValues := false, transform := none }
  mocks :=
    { newResource := fun seen a => .ok (some (if seen.isEmpty then "i-0" else "i-1"), [("n", .num seen.length), ("in", a.inputs)])
      call := fun _ a => .ok (.pair [("echo", a.args)] (some [])) }

def sampleRegister (t n : String) : RegisterRequest where
  type_ := t.toList
  name := n.toList
  parent := []
  provider := []
  importId := []
  custom := true
  object := [("size", .num 3)]

/-- Two registrations that overlap: the second one is answered first. -/
def sampleHistory : List Event :=
  [.start 0 (.register (sampleRegister "a:b:C" "web")), .start 1 (.register (sampleRegister "a:b:C" "db")),
   .commit 1, .commit 0]

/-- Non-trivial instance of `lookup_registered`. -/
example : sampleSetup.env.transform = none ∧ sampleSetup.Dicts ∧
    ∃ r r', (run sampleSetup .init sampleHistory).log =
      [(.register (sampleRegister "a:b:C" "db"), .resource r')] ++
        (.register (sampleRegister "a:b:C" "web"), .resource r) :: [] ∧
      r.urn = "urn:pulumi:dev::proj::a:b:C::web".toList ∧ r.id = "i-0" ∧
      r'.urn = "urn:pulumi:dev::proj::a:b:C::db".toList ∧ r'.id = "i-1" := by
  refine ⟨rfl, ?_, ?_⟩
  · intro seen a id state h
    simp only [sampleSetup, Except.ok.injEq, Prod.mk.injEq] at h
    rw [← h.2]
    simp [Wire.sigKey]
  · exact ⟨_, _, rfl, by decide, by decide, by decide, by decide⟩

/-! ## C73 -/

theorem mockChain_text (amb : Urn.Ambient) (hs : amb.stack ≠ []) (hsc : CleanField amb.stack)
    (hss : ∀ a : Text, amb.stack ≠ ':' :: a) (hp : CleanField amb.project)
    (chain : List (Text × Text)) (t n : Text) (hc : ∀ x ∈ chain, CleanType x.1 ∧ CleanName x.2) :
    mockChain amb [] (chain ++ [(t, n)]) =
      .ok (Urn.Urn.mk amb.stack amb.project (chain.getLast?.map (·.1)).toList t n).text := by
  have key : ∀ (chain : List (Text × Text)) (u : Urn.Urn), u.Clean →
      (∀ x ∈ chain, CleanType x.1 ∧ CleanName x.2) →
      mockChain amb u.text (chain ++ [(t, n)]) =
        .ok (Urn.Urn.mk amb.stack amb.project [(chain.getLast?.map (·.1)).getD u.type_] t n).text := by
    intro chain
    induction chain with
    | nil => intro u hu _; simp [mockChain, makeUrn_child amb hu]
    | cons x chain ih =>
      intro u hu hx
      obtain ⟨t', n'⟩ := x
      have h := hx (t', n') (List.mem_cons_self ..)
      simp only [List.cons_append, mockChain, makeUrn_child amb hu]
      rw [ih _ { stack_ne := hs, stack := hsc, stack_start := hss, project := hp,
                 ancestors := by simpa using hu.type_, type_ := h.1, name := h.2 }
        (fun y hy => hx y (List.mem_cons_of_mem _ hy))]
      cases chain with
      | nil => simp
      | cons y chain => simp [List.getLast?_cons_cons, List.getLast?_eq_some_getLast (l := y :: chain) (by simp)]
  cases chain with
  | nil => simp [mockChain, makeUrn_root]
  | cons x chain =>
    obtain ⟨t', n'⟩ := x
    have h := hc (t', n') (List.mem_cons_self ..)
    simp only [List.cons_append, mockChain, makeUrn_root]
    rw [key chain _ { stack_ne := hs, stack := hsc, stack_start := hss, project := hp,
                      ancestors := by simp, type_ := h.1, name := h.2 }
      (fun y hy => hc y (List.mem_cons_of_mem _ hy))]
    cases chain with
    | nil => simp
    | cons y chain => simp [List.getLast?_cons_cons, List.getLast?_eq_some_getLast (l := y :: chain) (by simp)]

/-- **C73** (partial). Resources that differ in their parent's type, their type or their name get different URNs.
Missing: resources that differ only in the types of further ancestors (`grandparents_confused`). -/
theorem urns_differ_partial (amb : Urn.Ambient) (hs : amb.stack ≠ []) (hsc : CleanField amb.stack)
    (hss : ∀ a : Text, amb.stack ≠ ':' :: a) (hp : CleanField amb.project)
    {chain chain' : List (Text × Text)} {t n t' n' : Text}
    (hc : ∀ x ∈ chain ++ [(t, n)], CleanType x.1 ∧ CleanName x.2)
    (hc' : ∀ x ∈ chain' ++ [(t', n')], CleanType x.1 ∧ CleanName x.2)
    (hne : (chain.getLast?.map (·.1), t, n) ≠ (chain'.getLast?.map (·.1), t', n')) :
    ∃ u u', mockChain amb [] (chain ++ [(t, n)]) = .ok u ∧ mockChain amb [] (chain' ++ [(t', n')]) = .ok u' ∧
      u ≠ u' := by
  have clean : ∀ (chain : List (Text × Text)) (t n : Text), (∀ x ∈ chain ++ [(t, n)], CleanType x.1 ∧ CleanName x.2) →
      (Urn.Urn.mk amb.stack amb.project (chain.getLast?.map (·.1)).toList t n).Clean := by
    intro chain t n hc
    refine { stack_ne := hs, stack := hsc, stack_start := hss, project := hp, ancestors := ?_,
             type_ := (hc (t, n) (by simp)).1, name := (hc (t, n) (by simp)).2 }
    intro y hy
    simp only [Option.mem_toList, Option.map_eq_some_iff] at hy
    obtain ⟨z, hz, rfl⟩ := hy
    exact (hc z (List.mem_append_left _ (List.mem_of_getLast? hz))).1
  refine ⟨_, _, mockChain_text amb hs hsc hss hp chain t n (fun x hx => hc x (List.mem_append_left _ hx)),
    mockChain_text amb hs hsc hss hp chain' t' n' (fun x hx => hc' x (List.mem_append_left _ hx)), ?_⟩
  intro e
  obtain ⟨h1, h2, h3⟩ := text_inj (clean _ _ _ hc) (clean _ _ _ hc') e
  apply hne
  simp only at h1 h2 h3
  have : chain.getLast?.map (·.1) = chain'.getLast?.map (·.1) := by
    cases hx : chain.getLast?.map (·.1) <;> cases hy : chain'.getLast?.map (·.1) <;>
      simp [hx, hy] at h1 ⊢
    exact h1
  rw [this, h2, h3]

/-- **C73**, for a resource at the top or directly below one at the top: its URN is the documented one. -/
theorem shallow_urn (amb : Urn.Ambient) (hs : amb.stack ≠ []) (hsc : CleanField amb.stack)
    (hss : ∀ a : Text, amb.stack ≠ ':' :: a) (hp : CleanField amb.project)
    {chain : List (Text × Text)} (hlen : chain.length ≤ 1) (t n : Text)
    (hc : ∀ x ∈ chain, CleanType x.1 ∧ CleanName x.2) :
    mockChain amb [] (chain ++ [(t, n)]) =
      .ok (Urn.Urn.mk amb.stack amb.project (chain.map (·.1)) t n).text := by
  rw [mockChain_text amb hs hsc hss hp chain t n hc]
  cases chain with
  | nil => rfl
  | cons x chain =>
    cases chain with
    | nil => rfl
    | cons y chain => simp at hlen

/-- Non-trivial instance: two resources of the same name and type below parents of different types. -/
example : ∃ u u', mockChain sampleSetup.amb [] [("a:b:P".toList, "p".toList), ("a:b:C".toList, "c".toList)] = .ok u ∧
    mockChain sampleSetup.amb [] [("a:b:Q".toList, "p".toList), ("a:b:C".toList, "c".toList)] = .ok u' ∧ u ≠ u' :=
  ⟨_, _, rfl, rfl, by decide⟩

/-- **C73** fails: resources below grandparents of different types get the same URN. -/
theorem grandparents_confused (amb : Urn.Ambient) (hs : amb.stack ≠ []) (hsc : CleanField amb.stack)
    (hss : ∀ a : Text, amb.stack ≠ ':' :: a) (hp : CleanField amb.project) (t n : Text) :
    mockChain amb [] [("a:b:A".toList, "x".toList), ("a:b:P".toList, "p".toList), (t, n)] =
    mockChain amb [] [("a:b:B".toList, "y".toList), ("a:b:P".toList, "p".toList), (t, n)] := by
  have hf : ∀ s : Text, ':' ∉ s ∨ s = "a:b:A".toList ∨ s = "a:b:B".toList ∨ s = "a:b:P".toList →
      CleanField s := by
    intro s h
    rcases h with h | rfl | rfl | rfl
    · constructor
      · rintro ⟨a, b, rfl⟩; exact h (by simp)
      · rintro a rfl; exact h (by simp)
    all_goals
      constructor
      · rw [Urn.not_hasSep_iff]; decide
      · intro a ha
        have := congrArg List.getLast? ha
        rw [List.getLast?_concat] at this
        revert this; decide
  have hn : ∀ s : Text, ':' ∉ s → CleanName s := by
    intro s h
    exact ⟨(hf s (.inl h)).1, by rintro a rfl; exact h (by simp)⟩
  have h1 := mockChain_text amb hs hsc hss hp [("a:b:A".toList, "x".toList), ("a:b:P".toList, "p".toList)] t n (by
    intro x hx
    simp only [List.mem_cons, List.not_mem_nil, or_false] at hx
    rcases hx with rfl | rfl
    · exact ⟨⟨hf _ (by simp), by decide⟩, hn _ (by decide)⟩
    · exact ⟨⟨hf _ (by simp), by decide⟩, hn _ (by decide)⟩)
  have h2 := mockChain_text amb hs hsc hss hp [("a:b:B".toList, "y".toList), ("a:b:P".toList, "p".toList)] t n (by
    intro x hx
    simp only [List.mem_cons, List.not_mem_nil, or_false] at hx
    rcases hx with rfl | rfl
    · exact ⟨⟨hf _ (by simp), by decide⟩, hn _ (by decide)⟩
    · exact ⟨⟨hf _ (by simp), by decide⟩, hn _ (by decide)⟩)
  exact h1.trans h2.symm

/-! ## C74 -/

theorem deserialize_of {env : Env} {kvs : List (String × W)} {v : PV}
    (h : Wire.deserializeProperties env false false kvs = .ok v) : deserialize env kvs = .ok v := by
  simp [deserialize, h]

theorem deserialize_err {env : Env} {kvs : List (String × W)} {e : Wire.Err}
    (h : Wire.deserializeProperties env false false kvs = .error e) : deserialize env kvs = .error (.wire e) := by
  simp [deserialize, h]

theorem started_st (c : Conc) (n : Nat) (q : Request) (x : State × Started) : (c.started n q x).st = x.1 := by
  obtain ⟨st, a | a | a⟩ := x <;> rfl

theorem invoked_st (c : Conc) (q : Request) (x : State × Except Err InvokeResponse) : (c.invoked q x).st = x.1 := by
  obtain ⟨st, a | a⟩ := x <;> rfl

theorem startKnown_seen {s : Setup} {st : State} {q : RegisterRequest} {urn : Text} {inputs : PV}
    (h : deserialize s.env q.object = .ok inputs) : (startKnown s st q urn).1.seen = st.seen ++
      [.resource ⟨q.type_, q.name, inputs, q.provider, q.importId, some q.custom⟩] := by
  rw [startKnown, h]
  simp only [callNew]
  split <;> rename_i heq <;> simp only [Prod.mk.injEq] at heq <;> obtain ⟨rfl, _⟩ := heq
  · rfl
  · split <;> rfl

theorem startRead_seen {s : Setup} {st : State} {q : ReadRequest} {inputs : PV}
    (h : deserialize s.env q.properties = .ok inputs) : (startRead s st q).1.seen = st.seen ++
      [.resource ⟨q.type_, q.name, inputs, q.provider, q.id, none⟩] := by
  rw [startRead, h]
  simp only [callNew]
  split <;> rename_i heq <;> simp only [Prod.mk.injEq] at heq <;> obtain ⟨rfl, _⟩ := heq
  · rfl
  · split
    · rfl
    · split <;> rfl

theorem invoke_seen {s : Setup} {st : State} {q : InvokeRequest} {args : PV} (ht : q.tok ≠ getResourceTok)
    (h : deserialize s.env q.args = .ok args) :
    (invoke s st q).1.seen = st.seen ++ [.call ⟨q.tok, args, q.provider⟩] := by
  rw [invoke, h]
  simp only
  rw [if_neg ht]
  simp only [callCall]
  split <;> rename_i heq <;> simp only [Prod.mk.injEq] at heq <;> obtain ⟨rfl, _⟩ := heq <;> rfl

/-- **C74.** Taking up a request makes exactly the call of the mocks that the request stands for, with the type,
name, provider, id and properties it carries, and nothing else ever calls them. -/
theorem mocks_called {s : Setup} {q : Request} {call : Option Seen} (h : Calls s q call) (c : Conc) {n : Nat}
    (hn : c.inFlight.lookup n = none) :
    (step s c (.start n q)).st.seen = c.st.seen ++ call.toList ∧
    ∀ m, (step s c (.commit m)).st.seen = c.st.seen := by
  refine ⟨?_, ?_⟩
  · cases h with
    | register ht hu hd =>
      simp only [step, hn, started_st, startRegister, hu]
      rw [if_neg (show _ ≠ stackType from ht), startKnown_seen (deserialize_of hd)]
      rfl
    | stack ht =>
      simp only [step, hn, started_st, startRegister]
      split
      · simp
      · rw [if_pos (show _ = stackType from ht)]; simp
    | orphan he =>
      simp only [step, hn, started_st, startRegister, he]
      simp
    | unreadable he =>
      simp only [step, hn, started_st, startRegister]
      split
      · simp
      · split
        · simp
        · rw [startKnown, deserialize_err he]; simp
    | read hd =>
      simp only [step, hn, started_st, startRead_seen (deserialize_of hd)]
      rfl
    | unreadableRead he =>
      simp only [step, hn, started_st, startRead, deserialize_err he]
      simp
    | call ht hd =>
      simp only [step, hn, invoked_st, invoke_seen ht (deserialize_of hd)]
      rfl
    | lookup ht =>
      simp only [step, hn, invoked_st, invoke]
      split
      · simp
      · rw [if_pos (show _ = getResourceTok from ht)]; simp
    | unreadableCall he =>
      simp only [step, hn, invoked_st, invoke, deserialize_err he]
      simp
  · intro m
    simp only [step]
    split
    · rfl
    · rfl

/-- Every request stands for a call of the mocks, or none. -/
theorem calls_total (s : Setup) (q : Request) : ∃ call, Calls s q call := by
  cases q with
  | register q =>
    by_cases ht : q.type_ = "pulumi:pulumi:Stack".toList
    · exact ⟨_, .stack ht⟩
    · cases hu : makeUrn s.amb q.parent q.type_ q.name with
      | error e => exact ⟨_, .orphan hu⟩
      | ok u =>
        cases hd : Wire.deserializeProperties s.env false false q.object with
        | error e => exact ⟨_, .unreadable hd⟩
        | ok v => exact ⟨_, .register ht hu hd⟩
  | read q =>
    cases hd : Wire.deserializeProperties s.env false false q.properties with
    | error e => exact ⟨_, .unreadableRead hd⟩
    | ok v => exact ⟨_, .read hd⟩
  | invoke q =>
    by_cases ht : q.tok = "pulumi:pulumi:getResource".toList
    · exact ⟨_, .lookup ht⟩
    · cases hd : Wire.deserializeProperties s.env false false q.args with
      | error e => exact ⟨_, .unreadableCall hd⟩
      | ok v => exact ⟨_, .call ht hd⟩

/-- **C74.** Plain inputs of a program reach the mocks as they are (without `None` entries). -/
theorem mocks_see_inputs (s : Setup) {env : Env} (hk : ∀ k, env.translate k = k) {inputs : List (String × PV)}
    (hn : (inputs.map (·.1)).Nodup) (hu : ∀ kv ∈ inputs, Wire.UserKey kv.1) (hp : ∀ kv ∈ inputs, Wire.Plain kv.2)
    (keep : Bool) {q : RegisterRequest} (ht : q.type_ ≠ "pulumi:pulumi:Stack".toList) {u : Text}
    (hurn : makeUrn s.amb q.parent q.type_ q.name = .ok u) (c : Conc) {n : Nat} (hf : c.inFlight.lookup n = none) :
    ∃ P, Wire.serializeProperties env none keep inputs = .ok P ∧
      (q.object = P.fields → (step s c (.start n (.register q))).st.seen = c.st.seen ++
        [.resource ⟨q.type_, q.name, Wire.dropNones (.dict inputs), q.provider, q.importId, some q.custom⟩]) := by
  obtain ⟨P, h1, h2⟩ := Wire.plain_properties_round_trip (env' := s.env) hk hn hu hp keep false false
  refine ⟨P, h1, fun hq => ?_⟩
  have := (mocks_called (s := s) (.register ht hurn (by rw [hq]; exact h2)) c hf).1
  simpa using this

/-- **C74.** Every answer to a registration or read, in any history of overlapping requests, comes from the call of
the mocks made for that request: its properties are the wire form of the state they returned, its id theirs. -/
theorem answers_from_mocks (s : Setup) (es : List Event) {q : Request} {r : ResourceResponse} {x : Asked}
    (h : (q, .resource r) ∈ (run s .init es).log) (hq : q.asked = some x) :
    ∃ id state, Gave s (run s .init es).st.seen x id state ∧ Conveys s x id state r :=
  (run_inv s es).answers q r h x hq

/-- **C74.** Plain state returned by the mocks reaches the program as it is (without `None` entries). -/
theorem program_sees_state {s : Setup} (ht : s.env.transform = none) {x : Asked} {id : Option String}
    {state : List (String × PV)} {r : ResourceResponse} (h : Conveys s x id state r)
    (hn : (state.map (·.1)).Nodup) (hu : ∀ kv ∈ state, Wire.UserKey kv.1) (hp : ∀ kv ∈ state, Wire.Plain kv.2)
    (env : Env) (keep ki : Bool) :
    Wire.deserializeProperties env keep ki r.object = .ok (Wire.dropNones (.dict state)) := by
  have hk : ∀ k, s.env.translate k = k := fun k => by simp [Wire.Env.translate, ht]
  obtain ⟨P, h1, h2⟩ := Wire.plain_properties_round_trip (env' := env) hk hn hu hp false keep ki
  have h3 := h.object
  rw [serialize, h1] at h3
  simp only [Except.ok.injEq] at h3
  rw [← h3]
  exact h2

/-- **C74** (partial). A call that the mocks answer with a dict, or with a dict and a list of failures, is answered
with them. Missing: the answer `(dict, None)`, which the signature of `Mocks.call` allows (`none_failures_raise`). -/
theorem call_answered_partial {s : Setup} (ht : s.env.transform = none) (st : State) {q : InvokeRequest} {args : PV}
    (htok : q.tok ≠ "pulumi:pulumi:getResource".toList)
    (hargs : Wire.deserializeProperties s.env false false q.args = .ok args)
    {result : CallResult} {ret : List (String × PV)} {failures : List (Text × Text)}
    (hres : result = .dict ret ∧ failures = [] ∨ result = .pair ret (some failures))
    (hcall : s.mocks.call st.seen ⟨q.tok, args, q.provider⟩ = .ok result)
    (hn : (ret.map (·.1)).Nodup) (hu : ∀ kv ∈ ret, Wire.UserKey kv.1) (hp : ∀ kv ∈ ret, Wire.Plain kv.2) :
    ∃ w, (invoke s st q).2 = .ok { ret := w, failures := failures } ∧
      ∀ env keep ki, Wire.deserializeProperties env keep ki w = .ok (Wire.dropNones (.dict ret)) := by
  have hk : ∀ k, s.env.translate k = k := fun k => by simp [Wire.Env.translate, ht]
  obtain ⟨P, h1, _⟩ := Wire.plain_properties_round_trip (env' := s.env) hk hn hu hp false false false
  refine ⟨P.fields, ?_, ?_⟩
  · have hparts : result.parts = .ok (ret, failures) := by
      rcases hres with ⟨rfl, rfl⟩ | rfl <;> rfl
    rw [invoke, deserialize_of hargs]
    simp only
    rw [if_neg (show q.tok ≠ getResourceTok from htok), callCall, hcall]
    simp only
    rw [answer, hparts]
    simp only
    rw [serialize, h1]
  · intro env keep ki
    obtain ⟨P', h1', h2'⟩ := Wire.plain_properties_round_trip (env' := env) hk hn hu hp false keep ki
    rw [h1] at h1'
    cases h1'
    exact h2'

/-- Non-trivial instance of `mocks_called`, `mocks_see_inputs`: the second registration of the history. -/
example : ∃ v, (run sampleSetup .init sampleHistory).st.seen =
    [.resource ⟨"a:b:C".toList, "web".toList, v, [], [], some true⟩,
     .resource ⟨"a:b:C".toList, "db".toList, v, [], [], some true⟩] ∧ v = .dict [("size", .num 3)] :=
  ⟨_, rfl, rfl⟩

/-- Non-trivial instance of `call_answered_partial`. -/
example : ∃ w, (invoke sampleSetup .init ⟨"a:b:f".toList, [("x", .num 1)], []⟩).2 = .ok ⟨w, []⟩ ∧ w ≠ [] :=
  ⟨_, rfl, by simp [Wire.setKey]⟩

/-- **C74** fails for the answer `(dict, None)`: the call raises `TypeError`. -/
theorem none_failures_raise (s : Setup) (st : State) {q : InvokeRequest} {args : PV}
    (htok : q.tok ≠ "pulumi:pulumi:getResource".toList)
    (hargs : Wire.deserializeProperties s.env false false q.args = .ok args) {ret : List (String × PV)}
    (hcall : s.mocks.call st.seen ⟨q.tok, args, q.provider⟩ = .ok (.pair ret none)) :
    (invoke s st q).2 = .error .type := by
  rw [invoke, deserialize_of hargs]
  simp only
  rw [if_neg (show q.tok ≠ getResourceTok from htok), callCall, hcall]
  rfl

/-! ## C75 -/

/-- **C75.** What the mocks receive never contains an Output: whatever the program passes, as long as it does not
use the reserved key itself, is serialised without output values, because the mock monitor does not announce
support for them. -/
theorem mocks_see_no_output {env : Env} (hov : env.outputValues = supportsFeature "outputValues")
    (hnames : ∀ ty k, k ≠ Wire.sigKey → env.mapKey ty k ≠ Wire.sigKey) {typ : Option String} {keep : Bool}
    (htop : ∀ k, k ≠ Wire.sigKey → env.topKey typ k ≠ Wire.sigKey)
    {inputs : List (String × PV)} (hin : NoReserved (.dict inputs)) {P : Wire.Props}
    (hs : Wire.serializeProperties env typ keep inputs = .ok P) {env' : Env} {v : PV}
    (hd : deserialize env' P.fields = .ok v) : ¬ HasOutput v := by
  have h := serProps_clean (by rw [hov]; rfl) hnames htop (acc := ⟨[], []⟩) (by simp) (by simp) hin hs
  exact (desProps_clean (deserialize_ok hd) h.1 h.2)

/-- Non-trivial instance: a secret Output among the inputs is seen as its value, with the mark of a secret. -/
example : ∃ P v, Wire.serializeProperties sampleSetup.env none true
      [("password", .output [] true true (.str "pw")), ("size", .num 3)] = .ok P ∧
    deserialize sampleSetup.env P.fields = .ok v ∧
    v = .dict [("password", Wire.secretDict (.str "pw")), ("size", .num 3)] :=
  ⟨_, _, rfl, rfl, rfl⟩

/-- **C75.** A resource among the inputs is seen as a resource where its module is registered, and a secret as a marked
value, because the mock monitor announces support for both. -/
theorem mocks_see_references {env env' : Env} (hr : env.resourceRefs = supportsFeature "resourceReferences") {n : Nat}
    {u : String} {parts : Urn.Parts} (hk : (env.res n).urn.known = true) (hs : (env.res n).urn.secret = false)
    (hu : (env.res n).urn.value = some u) (hp : Urn.parseUrn u.toList = .ok parts) {c : Urn.Parts → String → Wire.ResId}
    (hc : Wire.Builder env' parts = some c) (keep keep' : Bool) (ty : Wire.Ty) :
    ∃ x d w, Wire.ser env keep ty (.resource (.decl n)) = .ok (x, d) ∧ Wire.toWire x = some w ∧
      Wire.des env' keep' w = .ok (.resource (c parts u)) :=
  Wire.reference_rebuilt (hr.trans rfl) hk hs hu hp hc keep keep' ty

/-- **C75.** A secret among the inputs is sent to the mocks in a wrapper. -/
theorem mocks_see_secrets {env : Env} (hs : env.secrets = supportsFeature "secrets") {rs : List Wire.ResId} {v : PV}
    {ty : Wire.Ty} {x : PV} {d : List Wire.ResId} (hu : ¬ Wire.ContainsUnknown v)
    (hx : Wire.ser env false ty (.output rs true true v) = .ok (x, d)) :
    ∃ y e, Wire.ser env false ty v = .ok (y, e) ∧
      x = .dict [("4dabf18193072939515e22adb298388d", .str "1b47061264138c4ac30d75fd1eb44270"), ("value", y)] :=
  Wire.secret_wrapped (hs.trans rfl) hu hx

/-- Nothing else is supported: an engine feature that programs ask for is off in tests with mocks. -/
theorem other_features_off {id : String} (h : id ∉ ["secrets", "resourceReferences"]) : supportsFeature id = false := by
  simp only [List.mem_cons, List.not_mem_nil, or_false, not_or] at h
  simp [supportsFeature, h.1, h.2]

/-- Non-trivial instance: the sample environment is one of a program with mocks. -/
example : Wire.sampleEnv.resourceRefs = supportsFeature "resourceReferences" ∧
    Wire.sampleEnv.secrets = supportsFeature "secrets" ∧ supportsFeature "outputValues" = false ∧
    (Wire.ser Wire.sampleEnv false .any (.output [] true true (.str "pw"))).isOk = true := ⟨rfl, rfl, rfl, rfl⟩

end Pulumi.Mocks
