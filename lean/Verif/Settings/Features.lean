import Verif.Settings.Lemmas
namespace Pulumi.Settings

theorem look_store_same (f b l) : look f (store f b l) = some b := by
  induction l with
  | nil => simp [store, look]
  | cons kx l ih =>
    obtain ⟨k, x⟩ := kx
    simp only [store]
    split
    · simp [look, *]
    · simp [look, *]

theorem look_store_other {f g b l} (h : g ≠ f) : look g (store f b l) = look g l := by
  induction l with
  | nil => simp [store, look, Ne.symm h]
  | cons kx l ih =>
    obtain ⟨k, x⟩ := kx
    simp only [store]
    split
    · rename_i hk; subst hk; simp [look, Ne.symm h]
    · simp only [look, ih]

/-- The invariant of feature detection: each context that has settings has a cache that belongs to the monitor it shows. -/
structure Inv (s : State) (own : Nat → Bool) (said : Nat → String → Bool → Prop) (owner : Nat → Val) : Prop where
  ctx : ∀ c, own c = true → ∃ a, a < s.next ∧ s.vars c .features = some (.addr a) ∧ s.vars c .monitor = some (owner a)
  kind : ∀ a, owner a = .none ∨ ∃ m, owner a = .obj m
  heap : ∀ a k b, a < s.next → look k (s.heap a) = some b → ∃ m, owner a = .obj m ∧ said m k b
  pend : ∀ c f m, (c, f, m) ∈ s.pending → own c = true ∧ s.vars c .monitor = some (.obj m)

/-- What one operation lets a monitor say. -/
def saidBy : Op → Nat → String → Bool → Prop
  | .answer _ f m ans, m', f', b => m' = m ∧ f' = f ∧ ans.result = .ok b
  | _, _, _, _ => False

theorem Inv.mono {s own said said' owner} (h : Inv s own said owner) (hs : ∀ m k b, said m k b → said' m k b) : Inv s own said' owner :=
  ⟨h.ctx, h.kind, fun a k b ha hl => (h.heap a k b ha hl).imp fun _ hm => ⟨hm.1, hs _ _ _ hm.2⟩, h.pend⟩

theorem Inv.settings {s own said owner c a e} (h : Inv s own said owner) (hm : a.monitor = .none ∨ ∃ m, a.monitor = .obj m)
    (hp : ∀ f m, (c, f, m) ∉ s.pending) : Inv (mkSettings s c a e) (upd own c true) said (upd owner s.next a.monitor) := by
  obtain ⟨m1, m2, m3, m4, m5, m6, m7⟩ := mkSettings_spec s c a e
  refine ⟨?_, ?_, ?_, ?_⟩
  · intro c' hc'
    by_cases hcc : c' = c
    · subst hcc
      exact ⟨s.next, by omega, m2, by rw [upd_same]; exact m1 _ _ rfl⟩
    · rw [upd_ne hcc] at hc'
      obtain ⟨x, h1, h2, h3⟩ := h.ctx c' hc'
      refine ⟨x, by omega, by rw [m3 _ hcc]; exact h2, ?_⟩
      rw [m3 _ hcc, upd_ne (by omega)]; exact h3
  · intro x
    by_cases hx : x = s.next
    · subst hx; rw [upd_same]; exact hm
    · rw [upd_ne hx]; exact h.kind x
  · intro x k b hx hl
    rw [m4] at hl
    by_cases hxn : x = s.next
    · subst hxn; rw [upd_same] at hl; cases hl
    · rw [upd_ne hxn] at hl
      rw [upd_ne hxn]
      exact h.heap x k b (by omega) hl
  · intro c' f m hmem
    rw [m7] at hmem
    have hcc : c' ≠ c := by rintro rfl; exact hp _ _ hmem
    rw [upd_ne hcc, m3 _ hcc]
    exact h.pend _ _ _ hmem

theorem Inv.step {s own said owner op} (h : Inv s own said owner) (ha : Allowed s own op) :
    ∃ owner', Inv (step s op) (stepOwn own op) (fun m k b => said m k b ∨ saidBy op m k b) owner' := by
  cases op with
  | settings c a e => exact ⟨_, (h.settings ha.1 ha.2).mono fun _ _ _ => .inl⟩
  | reset c a e =>
    have h' : Inv { s with root := upd s.root c none } own said owner := ⟨h.ctx, h.kind, h.heap, h.pend⟩
    exact ⟨_, (h'.settings ha.1 ha.2).mono fun _ _ _ => .inl⟩
  | mock => exact ha.elim
  | assign c f v =>
    refine ⟨owner, Inv.mono ?_ fun _ _ _ => .inl⟩
    have hv : ∀ c' f', f' = .monitor ∨ f' = .features → (s.set c f v).vars c' f' = s.vars c' f' := by
      intro c' f' hf
      have hne : f' ≠ f := by
        rintro rfl
        rcases hf with hf | hf
        · exact ha.1 hf
        · exact ha.2 hf
      by_cases hcc : c' = c
      · subst hcc; exact set_vars_field _ hne
      · rw [set_vars_other _ hcc]
    refine ⟨?_, h.kind, ?_, ?_⟩
    · intro c' hc'
      obtain ⟨x, h1, h2, h3⟩ := h.ctx c' hc'
      exact ⟨x, by simp only [Settings.step, set_next]; exact h1, by rw [Settings.step, hv _ _ (.inr rfl)]; exact h2, by rw [Settings.step, hv _ _ (.inl rfl)]; exact h3⟩
    · intro x k b hx hl
      simp only [Settings.step, set_next, set_heap] at hx hl
      exact h.heap x k b hx hl
    · intro c' f' m hmem
      simp only [Settings.step, set_pending] at hmem
      obtain ⟨p1, p2⟩ := h.pend _ _ _ hmem
      exact ⟨p1, by rw [Settings.step, hv _ _ (.inl rfl)]; exact p2⟩
  | setRoot c r => exact ⟨owner, ⟨h.ctx, h.kind, fun a k b x y => (h.heap a k b x y).imp fun _ hm => ⟨hm.1, .inl hm.2⟩, h.pend⟩⟩
  | fork c c' =>
    refine ⟨owner, Inv.mono ?_ fun _ _ _ => .inl⟩
    refine ⟨?_, h.kind, h.heap, ?_⟩
    · intro x hx
      simp only [stepOwn] at hx
      by_cases hxc : x = c'
      · subst hxc
        rw [upd_same] at hx
        obtain ⟨a, h1, h2, h3⟩ := h.ctx c hx
        exact ⟨a, h1, by simp only [Settings.step, fork, upd_same]; exact h2, by simp only [Settings.step, fork, upd_same]; exact h3⟩
      · rw [upd_ne hxc] at hx
        obtain ⟨a, h1, h2, h3⟩ := h.ctx x hx
        exact ⟨a, h1, by simp only [Settings.step, fork, upd_ne hxc]; exact h2, by simp only [Settings.step, fork, upd_ne hxc]; exact h3⟩
    · intro x f m hmem
      have hxc : x ≠ c' := by rintro rfl; exact ha f m hmem
      obtain ⟨p1, p2⟩ := h.pend x f m hmem
      exact ⟨by simp only [stepOwn, upd_ne hxc]; exact p1, by simp only [Settings.step, fork, upd_ne hxc]; exact p2⟩
  | thread c' =>
    refine ⟨owner, Inv.mono ?_ fun _ _ _ => .inl⟩
    refine ⟨?_, h.kind, h.heap, ?_⟩
    · intro x hx
      simp only [stepOwn] at hx
      by_cases hxc : x = c'
      · subst hxc; rw [upd_same] at hx; cases hx
      · rw [upd_ne hxc] at hx
        obtain ⟨a, h1, h2, h3⟩ := h.ctx x hx
        exact ⟨a, h1, by simp only [Settings.step, thread, upd_ne hxc]; exact h2, by simp only [Settings.step, thread, upd_ne hxc]; exact h3⟩
    · intro x f m hmem
      have hxc : x ≠ c' := by rintro rfl; exact ha f m hmem
      obtain ⟨p1, p2⟩ := h.pend x f m hmem
      exact ⟨by simp only [stepOwn, upd_ne hxc]; exact p1, by simp only [Settings.step, thread, upd_ne hxc]; exact p2⟩
  | ask c f =>
    refine ⟨owner, Inv.mono ?_ fun _ _ _ => .inl⟩
    obtain ⟨a, h1, h2, h3⟩ := h.ctx c ha
    simp only [Settings.step, Settings.ask, get_of_var h2, get_of_var h3, stepOwn]
    cases hl : look f (s.heap a) with
    | some b => exact h
    | none =>
      simp only
      rcases h.kind a with hk | ⟨m, hk⟩
      · rw [hk]; exact h
      · rw [hk]
        refine ⟨h.ctx, h.kind, h.heap, ?_⟩
        intro c' f' m' hmem
        rcases List.mem_cons.1 hmem with he | hmem
        · cases he; exact ⟨ha, by rw [h3, hk]⟩
        · exact h.pend _ _ _ hmem
  | answer c f m ans =>
    obtain ⟨p1, p2⟩ := h.pend _ _ _ ha
    obtain ⟨a, h1, h2, h3⟩ := h.ctx c p1
    have how : owner a = .obj m := by rw [h3] at p2; exact Option.some.inj p2
    refine ⟨owner, ?_⟩
    simp only [Settings.step, Settings.answer, stepOwn]
    cases hr : ans.result with
    | error e =>
      refine Inv.mono ⟨h.ctx, h.kind, h.heap, ?_⟩ fun _ _ _ => .inl
      intro c' f' m' hmem
      exact h.pend _ _ _ (List.mem_of_mem_erase hmem)
    | ok b =>
      simp only
      have hg : ({ s with pending := s.pending.erase (c, f, m) } : State).get c .features = .addr a := get_of_var h2
      rw [hg]
      simp only
      refine ⟨?_, h.kind, ?_, ?_⟩
      · intro c' hc'
        obtain ⟨x, g1, g2, g3⟩ := h.ctx c' hc'
        refine ⟨x, by rw [set_next]; exact g1, ?_, ?_⟩
        · by_cases hcc : c' = c
          · subst hcc
            rw [h2] at g2; cases g2
            exact set_vars_same ..
          · rw [set_vars_other _ hcc]; exact g2
        · by_cases hcc : c' = c
          · subst hcc; rw [set_vars_field _ (by decide)]; exact g3
          · rw [set_vars_other _ hcc]; exact g3
      · intro x k b' hx hl
        rw [set_next] at hx
        rw [set_heap] at hl
        simp only at hx hl
        by_cases hxa : x = a
        · subst hxa
          rw [upd_same] at hl
          by_cases hkf : k = f
          · subst hkf
            rw [look_store_same] at hl
            cases hl
            exact ⟨m, how, .inr ⟨rfl, rfl, hr⟩⟩
          · rw [look_store_other hkf] at hl
            obtain ⟨m', q1, q2⟩ := h.heap x k b' hx hl
            exact ⟨m', q1, .inl q2⟩
        · rw [upd_ne hxa] at hl
          obtain ⟨m', q1, q2⟩ := h.heap x k b' hx hl
          exact ⟨m', q1, .inl q2⟩
      · intro c' f' m' hmem
        rw [set_pending] at hmem
        obtain ⟨q1, q2⟩ := h.pend _ _ _ (List.mem_of_mem_erase hmem)
        refine ⟨q1, ?_⟩
        by_cases hcc : c' = c
        · subst hcc; rw [set_vars_field _ (by decide)]; exact q2
        · rw [set_vars_other _ hcc]; exact q2

theorem Inv.run {ops : List Op} {s own said owner} (h : Inv s own said owner) (hv : Valid s own ops) :
    ∃ owner', Inv (run s ops) (ownAfter own ops) (fun m k b => said m k b ∨ ∃ op ∈ ops, saidBy op m k b) owner' := by
  induction ops generalizing s own said owner with
  | nil => exact ⟨owner, h.mono fun _ _ _ => .inl⟩
  | cons op ops ih =>
    obtain ⟨o', h'⟩ := h.step hv.1
    obtain ⟨o'', h''⟩ := ih h' hv.2
    refine ⟨o'', h''.mono ?_⟩
    rintro m k b ((h | h) | ⟨op', hm, h⟩)
    · exact .inl h
    · exact .inr ⟨op, by simp, h⟩
    · exact .inr ⟨op', by simp [hm], h⟩

theorem inv_imported (e : Bool) : Inv (imported e) ownImported (fun _ _ _ => False) (fun _ => .none) := by
  unfold imported
  obtain ⟨m1, m2, m3, m4, m5, m6, m7⟩ := mkSettings_spec
    { vars := fun _ _ => none, dflt := fun _ => .none, heap := fun _ => [], next := 0, root := fun _ => none, pending := [] } 0
    { project := .str "project", stack := .str "stack", parallel := .none, dryRun := .none, legacyApply := .none,
      organization := .none, monitor := .none, engine := .none } e
  refine ⟨?_, fun _ => .inl rfl, ?_, ?_⟩
  · intro c hc
    simp only [ownImported, decide_eq_true_eq] at hc
    subst hc
    exact ⟨0, by rw [m5]; decide, m2, m1 _ _ rfl⟩
  · intro a k b ha hl
    rw [m5] at ha
    have : a = 0 := by simp only at ha; omega
    subst this
    rw [m4] at hl
    simp [upd, look] at hl
  · intro c f m hm
    rw [m7] at hm
    cases hm

/-- Dicts are never emptied and no context gets a dict that was not there. -/
theorem step_heap {s : State} {op : Op} {a k b} (ha : a < s.next) (hl : look k (s.heap a) = some b) :
    a < (step s op).next ∧ ∃ b', look k ((step s op).heap a) = some b' := by
  have hset : ∀ {s' : State}, s'.next = s.next + 1 → s'.heap = upd s.heap s.next [] → a < s'.next ∧ ∃ b', look k (s'.heap a) = some b' := by
    intro s' h1 h2
    exact ⟨by omega, b, by rw [h2, upd_ne (by omega)]; exact hl⟩
  cases op with
  | settings c a' e =>
    obtain ⟨_, _, _, m4, m5, _, _⟩ := mkSettings_spec s c a' e
    exact hset m5 m4
  | reset c a' e =>
    obtain ⟨_, _, _, m4, m5, _, _⟩ := mkSettings_spec { s with root := upd s.root c none } c a' e
    exact hset m5 m4
  | mock => simp only [step, mockSettings, set_next, set_heap]; exact ⟨ha, b, hl⟩
  | assign => simp only [step, set_next, set_heap]; exact ⟨ha, b, hl⟩
  | setRoot => exact ⟨ha, b, hl⟩
  | fork => exact ⟨ha, b, hl⟩
  | thread => exact ⟨ha, b, hl⟩
  | ask c f =>
    simp only [step, ask]
    split
    · split
      · exact ⟨ha, b, hl⟩
      · split <;> exact ⟨ha, b, hl⟩
    · exact ⟨ha, b, hl⟩
  | answer c f m ans =>
    simp only [step, answer]
    split
    · exact ⟨ha, b, hl⟩
    · split
      · rename_i b'' _ _ x _
        rw [set_next, set_heap]
        refine ⟨ha, ?_⟩
        simp only
        by_cases hxa : a = x
        · subst hxa
          rw [upd_same]
          by_cases hkf : k = f
          · subst hkf; exact ⟨b'', look_store_same ..⟩
          · exact ⟨b, by rw [look_store_other hkf]; exact hl⟩
        · rw [upd_ne hxa]; exact ⟨b, hl⟩
      · exact ⟨ha, b, hl⟩

theorem run_heap {ops : List Op} {s : State} {a k b} (ha : a < s.next) (hl : look k (s.heap a) = some b) :
    ∃ b', look k ((run s ops).heap a) = some b' := by
  induction ops generalizing s b with
  | nil => exact ⟨b, hl⟩
  | cons op ops ih =>
    obtain ⟨h1, b', h2⟩ := step_heap (op := op) ha hl
    exact ih h1 h2

end Pulumi.Settings
