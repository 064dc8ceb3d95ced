import Verif.Mocks.Lemmas
/-! # The invariant of the mock monitor -/
namespace Pulumi.Mocks
open Pulumi.Wire (PV W Env)
open Pulumi.Urn (Text)

theorem Gave.more {s : Setup} {seen : List Seen} {x : Asked} {id : Option String} {state : List (String × PV)}
    (h : Gave s seen x id state) (more : List Seen) : Gave s (seen ++ more) x id state := by
  obtain ⟨inputs, hi, b, a, rfl, hm⟩ := h
  exact ⟨inputs, hi, b, a ++ more, by simp, hm⟩

/-- The registration `reg` is what the mocks returned for the last answered request that gave the URN `u`. -/
def Latest (s : Setup) (c : Conc) (u : Text) (reg : Registration) : Prop :=
  reg.urn = u ∧ ∃ l1 l2 q r x, c.log = l1 ++ (q, .resource r) :: l2 ∧ q.asked = some x ∧ r.urn = u ∧
    Gave s c.st.seen x reg.id reg.state ∧ Conveys s x reg.id reg.state r ∧ ∀ y ∈ l2, ¬ Gives u y

structure Inv (s : Setup) (c : Conc) : Prop where
  flights : ∀ (n : Nat) (q : Request) (p : Pending), (n, q, p) ∈ c.inFlight →
    p.urn = p.response.urn ∧ ∃ x, q.asked = some x ∧ Gave s c.st.seen x p.id p.state ∧
      Conveys s x p.id p.state p.response
  answers : ∀ q r, (q, Response.resource r) ∈ c.log → ∀ x, q.asked = some x →
    ∃ id state, Gave s c.st.seen x id state ∧ Conveys s x id state r
  table : ∀ u reg, c.st.resources.lookup u = some reg → Latest s c u reg
  absent : ∀ u, c.st.resources.lookup u = none → ∀ y ∈ c.log, ¬ Gives u y

/-- A step that calls the mocks, answers a request that gives no URN, and leaves the dict as it is. -/
theorem Inv.answer {s : Setup} {c : Conc} (h : Inv s c) {st : State} (more : List Seen)
    (hs : st.seen = c.st.seen ++ more) (hr : st.resources = c.st.resources) {q : Request} {a : Response}
    (hq : (∀ r, a ≠ .resource r) ∨ q.asked = none) : Inv s { c with st := st, log := c.log ++ [(q, a)] } := by
  have hg : ∀ u, ¬ Gives u (q, a) := by
    rintro u ⟨hn, r, hr, _⟩
    rcases hq with hq | hq
    · exact hq r hr
    · exact hn hq
  refine ⟨?_, ?_, ?_, ?_⟩
  · intro n q' p hp
    obtain ⟨hu, x, hx, hgv, hc⟩ := h.flights n q' p hp
    exact ⟨hu, x, hx, by simpa [hs] using hgv.more more, hc⟩
  · intro q' r hm x hx
    rcases List.mem_append.1 hm with hm | hm
    · obtain ⟨id, state, hgv, hc⟩ := h.answers q' r hm x hx
      exact ⟨id, state, by simpa [hs] using hgv.more more, hc⟩
    · simp only [List.mem_singleton, Prod.mk.injEq] at hm
      obtain ⟨rfl, rfl⟩ := hm
      rcases hq with hq | hq
      · exact absurd rfl (hq r)
      · rw [hq] at hx; cases hx
  · intro u reg hl
    rw [show ({ c with st := st, log := c.log ++ [(q, a)] } : Conc).st.resources = c.st.resources from hr] at hl
    obtain ⟨hu, l1, l2, q', r, x, h1, h2, h3, h4, h5, h6⟩ := h.table u reg hl
    refine ⟨hu, l1, l2 ++ [(q, a)], q', r, x, by simp [h1], h2, h3, by simpa [hs] using h4.more more, h5, ?_⟩
    intro y hy
    rcases List.mem_append.1 hy with hy | hy
    · exact h6 y hy
    · simp only [List.mem_singleton] at hy; subst hy; exact hg u
  · intro u hl y hy
    rw [show ({ c with st := st, log := c.log ++ [(q, a)] } : Conc).st.resources = c.st.resources from hr] at hl
    rcases List.mem_append.1 hy with hy | hy
    · exact h.absent u hl y hy
    · simp only [List.mem_singleton] at hy; subst hy; exact hg u

/-- A step that calls the mocks and leaves the assignment for later. -/
theorem Inv.fly {s : Setup} {c : Conc} (h : Inv s c) {st : State} (more : List Seen)
    (hs : st.seen = c.st.seen ++ more) (hr : st.resources = c.st.resources) {n : Nat} {q : Request} {p : Pending}
    (hu : p.urn = p.response.urn) {x : Asked} (hx : q.asked = some x) (hg : Gave s st.seen x p.id p.state)
    (hc : Conveys s x p.id p.state p.response) :
    Inv s { c with st := st, inFlight := (n, q, p) :: c.inFlight } := by
  refine ⟨?_, ?_, ?_, ?_⟩
  · intro n' q' p' hp
    rcases List.mem_cons.1 hp with hp | hp
    · simp only [Prod.mk.injEq] at hp
      obtain ⟨rfl, rfl, rfl⟩ := hp
      exact ⟨hu, x, hx, hg, hc⟩
    · obtain ⟨hu, x, hx, hgv, hc⟩ := h.flights n' q' p' hp
      exact ⟨hu, x, hx, by simpa [hs] using hgv.more more, hc⟩
  · intro q' r hm x hx
    obtain ⟨id, state, hgv, hc⟩ := h.answers q' r hm x hx
    exact ⟨id, state, by simpa [hs] using hgv.more more, hc⟩
  · intro u reg hl
    rw [show ({ c with st := st, inFlight := (n, q, p) :: c.inFlight } : Conc).st.resources = c.st.resources
      from hr] at hl
    obtain ⟨hu, l1, l2, q', r, x, h1, h2, h3, h4, h5, h6⟩ := h.table u reg hl
    exact ⟨hu, l1, l2, q', r, x, h1, h2, h3, by simpa [hs] using h4.more more, h5, h6⟩
  · intro u hl y hy
    rw [show ({ c with st := st, inFlight := (n, q, p) :: c.inFlight } : Conc).st.resources = c.st.resources
      from hr] at hl
    exact h.absent u hl y hy

theorem Inv.commit {s : Setup} {c : Conc} (h : Inv s c) {n : Nat} {q : Request} {p : Pending}
    (hm : (n, q, p) ∈ c.inFlight) (f : (Nat × Request × Pending) → Bool) :
    Inv s { st := assign c.st p, inFlight := c.inFlight.filter f, log := c.log ++ [(q, .resource p.response)] } := by
  obtain ⟨hu, x, hx, hg, hc⟩ := h.flights n q p hm
  refine ⟨?_, ?_, ?_, ?_⟩
  · intro n' q' p' hp
    exact h.flights n' q' p' (List.mem_filter.1 hp).1
  · intro q' r hm' x' hx'
    rcases List.mem_append.1 hm' with hm' | hm'
    · exact h.answers q' r hm' x' hx'
    · simp only [List.mem_singleton, Prod.mk.injEq, Response.resource.injEq] at hm'
      obtain ⟨rfl, rfl⟩ := hm'
      rw [hx] at hx'
      cases hx'
      exact ⟨_, _, hg, hc⟩
  · intro u reg hl
    by_cases hup : u = p.urn
    · subst hup
      simp only [assign, setReg_self, Option.some.injEq] at hl
      subst hl
      exact ⟨rfl, c.log, [], q, p.response, x, rfl, hx, hu.symm, hg, hc, by simp⟩
    · simp only [assign, setReg_ne _ _ hup] at hl
      obtain ⟨hu', l1, l2, q', r, x', h1, h2, h3, h4, h5, h6⟩ := h.table u reg hl
      refine ⟨hu', l1, l2 ++ [(q, .resource p.response)], q', r, x', by simp [h1], h2, h3, h4, h5, ?_⟩
      intro y hy
      rcases List.mem_append.1 hy with hy | hy
      · exact h6 y hy
      · simp only [List.mem_singleton] at hy
        subst hy
        rintro ⟨_, r', hr', hur⟩
        simp only [Response.resource.injEq] at hr'
        subst hr'
        exact hup (by rw [hu, hur])
  · intro u hl y hy
    by_cases hup : u = p.urn
    · subst hup
      simp [assign, setReg_self] at hl
    · simp only [assign, setReg_ne _ _ hup] at hl
      rcases List.mem_append.1 hy with hy | hy
      · exact h.absent u hl y hy
      · simp only [List.mem_singleton] at hy
        subst hy
        rintro ⟨_, r', hr', hur⟩
        simp only [Response.resource.injEq] at hr'
        subst hr'
        exact hup (by rw [hu, hur])

theorem lookup_mem {α β : Type} [BEq α] [LawfulBEq α] {l : List (α × β)} {k : α} {v : β} (h : l.lookup k = some v) :
    (k, v) ∈ l := by
  induction l with
  | nil => simp at h
  | cons x l ih =>
    obtain ⟨k', v'⟩ := x
    rw [List.lookup_cons] at h
    split at h
    · rename_i hk
      cases h
      rw [beq_iff_eq] at hk
      subst hk
      exact List.mem_cons_self ..
    · exact List.mem_cons_of_mem _ (ih h)

theorem deserialize_ok {env : Env} {kvs : List (String × W)} {v : PV} (h : deserialize env kvs = .ok v) :
    Wire.deserializeProperties env false false kvs = .ok v := by
  unfold deserialize at h
  split at h
  · rename_i v' hv; cases h; exact hv
  · cases h

theorem Inv.pending {s : Setup} {c : Conc} (h : Inv s c) {n : Nat} {q : Request} {st : State} {p : Pending}
    (more : List Seen) (hs : st.seen = c.st.seen ++ more) (hr : st.resources = c.st.resources)
    (hu : p.urn = p.response.urn) {x : Asked} (hx : q.asked = some x) (hg : Gave s st.seen x p.id p.state)
    (hc : Conveys s x p.id p.state p.response) : Inv s (c.started n q (st, .pending p)) :=
  h.fly more hs hr hu hx hg hc

theorem Inv.failed {s : Setup} {c : Conc} (h : Inv s c) {n : Nat} {q : Request} {st : State} {e : Err}
    (more : List Seen) (hs : st.seen = c.st.seen ++ more) (hr : st.resources = c.st.resources) :
    Inv s (c.started n q (st, .failed e)) :=
  h.answer more hs hr (.inl (by simp))

/-- What `start` can come to for a registration. -/
theorem startRegister_inv {s : Setup} {c : Conc} (h : Inv s c) (n : Nat) (q : RegisterRequest) :
    Inv s (c.started n (.register q) (startRegister s c.st q)) := by
  unfold startRegister
  split
  · exact h.failed [] (by simp) rfl
  · rename_i urn hurn
    split
    · rename_i ht
      refine h.answer [] (by simp) rfl (.inr ?_)
      simp only [Request.asked]
      exact if_pos ht
    · rename_i ht
      have hx : (Request.register q).asked =
          some ⟨q.parent, q.type_, q.name, q.provider, q.importId, some q.custom, q.object⟩ := by
        simp only [Request.asked]
        exact if_neg ht
      unfold startKnown
      split
      · exact h.failed [] (by simp) rfl
      · rename_i inputs hin
        simp only [callNew]
        split
        · rename_i st e heq
          simp only [Prod.mk.injEq] at heq
          obtain ⟨rfl, _⟩ := heq
          exact h.failed [_] rfl rfl
        · rename_i st id state heq
          simp only [Prod.mk.injEq] at heq
          obtain ⟨rfl, hm⟩ := heq
          split
          · exact h.failed [_] rfl rfl
          · rename_i obj hobj
            refine h.pending [_] rfl rfl rfl hx ?_ ⟨hurn, fun _ => rfl, hobj⟩
            refine ⟨inputs, deserialize_ok hin, c.st.seen, [], rfl, ?_⟩
            split at hm
            · rename_i r hr; cases hm; exact hr
            · cases hm

theorem startRead_inv {s : Setup} {c : Conc} (h : Inv s c) (n : Nat) (q : ReadRequest) :
    Inv s (c.started n (.read q) (startRead s c.st q)) := by
  have hx : (Request.read q).asked =
      some ⟨q.parent, q.type_, q.name, q.provider, q.id, none, q.properties⟩ := rfl
  unfold startRead
  split
  · exact h.failed [] (by simp) rfl
  · rename_i inputs hin
    simp only [callNew]
    split
    · rename_i st e heq
      simp only [Prod.mk.injEq] at heq
      obtain ⟨rfl, _⟩ := heq
      exact h.failed [_] rfl rfl
    · rename_i st id state heq
      simp only [Prod.mk.injEq] at heq
      obtain ⟨rfl, hm⟩ := heq
      split
      · exact h.failed [_] rfl rfl
      · rename_i obj hobj
        split
        · exact h.failed [_] rfl rfl
        · rename_i urn hurn
          refine h.pending [_] rfl rfl rfl hx ?_ ⟨hurn, fun hc => absurd rfl hc, hobj⟩
          refine ⟨inputs, deserialize_ok hin, c.st.seen, [], rfl, ?_⟩
          split at hm
          · rename_i r hr; cases hm; exact hr
          · cases hm

theorem invoke_inv {s : Setup} {c : Conc} (h : Inv s c) (q : InvokeRequest) :
    Inv s (c.invoked (.invoke q) (invoke s c.st q)) := by
  have key : ∀ (st : State) (a : Except Err InvokeResponse) (more : List Seen), st.seen = c.st.seen ++ more →
      st.resources = c.st.resources → Inv s (c.invoked (.invoke q) (st, a)) := by
    intro st a more h1 h2
    cases a with
    | ok r => exact h.answer more h1 h2 (.inr rfl)
    | error e => exact h.answer more h1 h2 (.inr rfl)
  unfold invoke
  split
  · exact key _ _ [] (by simp) rfl
  · split
    · exact key _ _ [] (by simp) rfl
    · simp only [callCall]
      split
      · rename_i heq
        simp only [Prod.mk.injEq] at heq
        obtain ⟨rfl, _⟩ := heq
        exact key _ _ [_] rfl rfl
      · rename_i heq
        simp only [Prod.mk.injEq] at heq
        obtain ⟨rfl, _⟩ := heq
        exact key _ _ [_] rfl rfl

theorem step_inv {s : Setup} {c : Conc} (h : Inv s c) (e : Event) : Inv s (step s c e) := by
  cases e with
  | start n q =>
    simp only [step]
    split
    · exact h
    · cases q with
      | register q => exact startRegister_inv h n q
      | read q => exact startRead_inv h n q
      | invoke q => exact invoke_inv h q
  | commit n =>
    simp only [step]
    split
    · exact h
    · rename_i q p hl
      exact h.commit (lookup_mem hl) _

theorem run_inv_from (s : Setup) (es : List Event) : ∀ c, Inv s c → Inv s (run s c es) := by
  induction es with
  | nil => intro c h; exact h
  | cons e es ih => intro c h; exact ih _ (step_inv h e)

theorem run_inv (s : Setup) (es : List Event) : Inv s (run s .init es) :=
  run_inv_from s es _ ⟨by simp [Conc.init], by simp [Conc.init], by simp [Conc.init, State.init], by simp [Conc.init]⟩

/-- The last element with a property is determined. -/
theorem last_unique {α : Type} {P : α → Prop} {l1 l2 m1 m2 : List α} {a b : α}
    (h : l1 ++ a :: l2 = m1 ++ b :: m2) (ha : P a) (hb : P b) (hl : ∀ y ∈ l2, ¬ P y) (hm : ∀ y ∈ m2, ¬ P y) :
    a = b := by
  rcases List.append_eq_append_iff.1 h with ⟨z, h1, h2⟩ | ⟨z, h1, h2⟩
  · cases z with
    | nil => simp at h2; exact h2.1
    | cons w z =>
      simp only [List.cons_append, List.cons.injEq] at h2
      exact absurd hb (hl b (by rw [h2.2]; simp))
  · cases z with
    | nil => simp at h2; exact h2.1.symm
    | cons w z =>
      simp only [List.cons_append, List.cons.injEq] at h2
      exact absurd ha (hm a (by rw [h2.2]; simp))

end Pulumi.Mocks
