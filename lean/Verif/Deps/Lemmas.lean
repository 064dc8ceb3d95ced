import Verif.Deps.Spec
/-! Auxiliary facts about the dependency model. -/
namespace Pulumi.Deps

theorem foldlM_cons' {α β : Type} (f : β → α → Option β) (b : β) (x : α) (xs : List α) :
    (x :: xs).foldlM f b = (f b x).bind (fun b' => xs.foldlM f b') := by
  simp [List.foldlM_cons]

theorem Path.trans {E : ResId → ResId → Prop} {a b c} (h : Path E a b) (h' : Path E b c) : Path E a c := by
  induction h with
  | one e => exact .cons e h'
  | cons e _ ih => exact .cons e (ih h')

theorem Reaches.trans {E : ResId → ResId → Prop} {a b c} (h : Reaches E a b) (h' : Reaches E b c) :
    Reaches E a c := by
  rcases h with rfl | h
  · exact h'
  · rcases h' with rfl | h'
    · exact .inr h
    · exact .inr (h.trans h')

theorem Reaches.step {E : ResId → ResId → Prop} {a b c} (h : E a b) (h' : Reaches E b c) : Reaches E a c :=
  Reaches.trans (.inr (.one h)) h'

/-- What a successful enumeration guarantees. -/
structure WalkOk (g : Graph) (srcs : List ResId) (w w' : Walk) : Prop where
  mono : ∀ x, x ∈ w.visited → x ∈ w'.visited
  has : ∀ r ∈ srcs, r ∈ w'.visited
  sound : ∀ x, x ∈ w'.visited → x ∈ w.visited ∨ ∃ r ∈ srcs, Reaches (Edge g) r x
  closed : ∀ x, x ∈ w'.visited → x ∉ w.visited → ∀ y ∈ deps g x, y ∈ w'.visited
  yields : (∀ x, x ∈ w.visited ↔ x ∈ w.yielded) → ∀ x, x ∈ w'.visited ↔ x ∈ w'.yielded

theorem walk_ok (g : Graph) : ∀ (fuel : Nat),
    (∀ r w w', walk g fuel r w = some w' → WalkOk g [r] w w') := by
  intro fuel
  induction fuel with
  | zero => intro r w w' h; simp [walk] at h
  | succ fuel ih =>
    have ihAll : ∀ (xs : List ResId) (w w' : Walk),
        xs.foldlM (fun w x => walk g fuel x w) w = some w' → WalkOk g xs w w' := by
      intro xs
      induction xs with
      | nil =>
        intro w w' h
        simp at h; subst h
        exact ⟨fun _ h => h, by simp, fun _ h => .inl h, fun _ h h' => absurd h h', fun h => h⟩
      | cons x xs ihx =>
        intro w w' h
        rw [foldlM_cons'] at h
        cases hw : walk g fuel x w with
        | none => simp [hw] at h
        | some w1 =>
          simp [hw] at h
          have h1 := ih x w w1 hw
          have h2 := ihx w1 w' h
          refine ⟨fun y hy => h2.mono _ (h1.mono _ hy), ?_, ?_, ?_, fun hy => h2.yields (h1.yields hy)⟩
          · intro r hr
            rcases List.mem_cons.1 hr with rfl | hr
            · exact h2.mono _ (h1.has _ (by simp))
            · exact h2.has _ hr
          · intro y hy
            rcases h2.sound y hy with hy | ⟨r, hr, hp⟩
            · rcases h1.sound y hy with hy | ⟨r, hr, hp⟩
              · exact .inl hy
              · exact .inr ⟨r, by simp at hr; simp [hr], hp⟩
            · exact .inr ⟨r, by simp [hr], hp⟩
          · intro y hy hn z hz
            by_cases hy1 : y ∈ w1.visited
            · exact h2.mono _ (h1.closed y hy1 hn z hz)
            · exact h2.closed y hy hy1 z hz
    intro r w w' h
    unfold walk at h
    split at h
    · rename_i hr
      cases h
      exact ⟨fun _ h => h, by simpa using hr, fun _ h => .inl h, fun _ h h' => absurd h h', fun h => h⟩
    · rename_i hr
      have h1 := ihAll _ _ _ h
      refine ⟨fun y hy => h1.mono _ (by simp [hy]), ?_, ?_, ?_, ?_⟩
      · intro x hx; simp at hx; subst hx; exact h1.mono _ (by simp)
      · intro y hy
        rcases h1.sound y hy with hy | ⟨s, hs, hp⟩
        · simp at hy
          rcases hy with rfl | hy
          · exact .inr ⟨y, by simp, .inl rfl⟩
          · exact .inl hy
        · exact .inr ⟨r, by simp, Reaches.step hs hp⟩
      · intro y hy hn z hz
        by_cases hyr : y = r
        · subst hyr; exact h1.has z hz
        · exact h1.closed y hy (by simp [hyr, hn]) z hz
      · intro hw
        apply h1.yields
        intro x
        simp [hw x, or_comm]

/-- Number of not yet visited nodes that own dependencies. -/
def unvisited (g : Graph) (vis : List ResId) : Nat := ((keys g).filter (fun k => decide (k ∉ vis))).length

theorem unvisited_mono (g : Graph) {v v' : List ResId} (h : ∀ x, x ∈ v → x ∈ v') :
    unvisited g v' ≤ unvisited g v := by
  unfold unvisited
  induction keys g with
  | nil => simp
  | cons k ks ih =>
    simp only [List.filter_cons]
    by_cases h1 : k ∈ v
    · have := h _ h1; simp [h1, this]; simpa using ih
    · by_cases h2 : k ∈ v'
      · simp [h1, h2]; simp at ih; omega
      · simp [h1, h2]; simpa using ih

theorem unvisited_lt (g : Graph) {r : ResId} {v : List ResId} (hk : r ∈ keys g) (hr : r ∉ v) :
    unvisited g (r :: v) + 1 ≤ unvisited g v := by
  have aux : ∀ ks : List ResId,
      (ks.filter (fun k => decide (k ∉ r :: v))).length ≤ (ks.filter (fun k => decide (k ∉ v))).length := by
    intro ks
    induction ks with
    | nil => simp
    | cons k ks ih =>
      simp only [List.filter_cons]
      by_cases h1 : k ∈ v
      · simp [h1]; simpa using ih
      · by_cases h2 : k = r
        · simp [h2] at *; simp [hr]; omega
        · simp [h1, h2]; simpa using ih
  unfold unvisited
  revert hk
  generalize keys g = ks
  intro hk
  induction ks with
  | nil => simp at hk
  | cons k ks ih =>
    simp only [List.filter_cons]
    rcases List.mem_cons.1 hk with rfl | hk
    · have := aux ks
      simp [hr]
      simpa using this
    · have := ih hk
      by_cases h1 : k ∈ v
      · simp [h1]; simpa using this
      · by_cases h2 : k = r
        · subst h2; simp [h1] at *; omega
        · simp [h1, h2]; simpa using this

theorem deps_nil_of_not_key (g : Graph) (r : ResId) (h : r ∉ keys g) : deps g r = [] := by
  induction g with
  | nil => rfl
  | cons p g ih =>
    obtain ⟨k, ds⟩ := p
    simp [keys] at h
    simp only [deps]
    rw [if_neg (fun e => h.1 e.symm)]
    apply ih
    simp [keys]; exact h.2

theorem walk_terminates (g : Graph) : ∀ (fuel : Nat) (r : ResId) (w : Walk),
    unvisited g w.visited + 1 ≤ fuel → ∃ w', walk g fuel r w = some w' := by
  intro fuel
  induction fuel with
  | zero => intro r w h; omega
  | succ fuel ih =>
    have ihAll : ∀ (xs : List ResId) (w : Walk), unvisited g w.visited + 1 ≤ fuel →
        ∃ w', xs.foldlM (fun w x => walk g fuel x w) w = some w' := by
      intro xs
      induction xs with
      | nil => intro w _; exact ⟨w, rfl⟩
      | cons x xs ihx =>
        intro w h
        obtain ⟨w1, hw1⟩ := ih x w h
        have hm := unvisited_mono g (walk_ok g fuel x w w1 hw1).mono
        obtain ⟨w2, hw2⟩ := ihx w1 (by omega)
        exact ⟨w2, by rw [foldlM_cons']; simp [hw1, hw2]⟩
    intro r w h
    unfold walk
    split
    · exact ⟨w, rfl⟩
    · rename_i hr
      by_cases hk : r ∈ keys g
      · have := unvisited_lt g hk hr
        exact ihAll _ _ (by simp only; omega)
      · rw [deps_nil_of_not_key g r hk]; exact ⟨_, rfl⟩

/-- The reachability test terminates and decides reachability. -/
theorem reachable_spec (g : Graph) (a b : ResId) :
    ∃ r, reachable? g a b = some r ∧ (r = true ↔ Reaches (Edge g) a b) := by
  have hle : unvisited g [] ≤ (keys g).length := by
    unfold unvisited; exact List.length_filter_le _ _
  obtain ⟨w', hw⟩ := walk_terminates g (budget g) a { visited := [], yielded := [] }
    (by simp only [budget]; omega)
  have hok := walk_ok g _ _ _ _ hw
  have hy := hok.yields (by simp)
  refine ⟨w'.yielded.any (· == b), by simp [reachable?, hw], ?_⟩
  have hmem : (w'.yielded.any (· == b) = true) ↔ b ∈ w'.visited := by
    rw [hy b]; simp
  rw [hmem]
  constructor
  · intro hb
    rcases hok.sound b hb with h | ⟨r, hr, hp⟩
    · simp at h
    · simp at hr; subst hr; exact hp
  · have ha : a ∈ w'.visited := hok.has a (by simp)
    have closed : ∀ x y, x ∈ w'.visited → Path (Edge g) x y → y ∈ w'.visited := by
      intro x y hx hp
      induction hp with
      | one e => exact hok.closed _ hx (by simp) _ e
      | cons e _ ih => exact ih (hok.closed _ hx (by simp) _ e)
    intro h
    rcases h with rfl | h
    · exact ha
    · exact closed _ _ ha h

theorem reachable_isSome (g : Graph) (a b : ResId) : (reachable? g a b).isSome := by
  obtain ⟨r, h, _⟩ := reachable_spec g a b; simp [h]

theorem edge_addDep (g : Graph) (a b x y : ResId) :
    Edge (addDep g a b) x y ↔ Edge g x y ∨ (x = a ∧ y = b) := by
  unfold Edge
  induction g with
  | nil =>
    simp only [addDep, deps]
    by_cases h : a = x
    · subst h; simp
    · simp [h]; intro h'; exact absurd h'.symm h
  | cons p g ih =>
    obtain ⟨k, ds⟩ := p
    simp only [addDep]
    by_cases hk : k = a
    · subst hk
      simp only [if_true, deps]
      by_cases hx : k = x
      · subst hx
        simp only [if_true]
        by_cases hb : b ∈ ds
        · simp [hb]; intro h; subst h; exact hb
        · simp [hb]
      · simp [hx]; intro h; exact absurd h.symm hx
    · simp only [if_neg hk, deps]
      by_cases hx : k = x
      · subst hx; simp [hk]
      · simp only [if_neg hx]; exact ih

theorem declare_spec (g : Graph) (a b : ResId) :
    (Reaches (Edge g) b a ∧ declare? g a b = some (g, false)) ∨
    (¬ Reaches (Edge g) b a ∧ declare? g a b = some (addDep g a b, true)) := by
  obtain ⟨r, hr, hiff⟩ := reachable_spec g b a
  unfold declare?
  rw [hr]
  cases r with
  | true => exact .inl ⟨hiff.1 rfl, rfl⟩
  | false => exact .inr ⟨fun h => by simpa using hiff.2 h, rfl⟩

theorem Path.mono {E E' : ResId → ResId → Prop} (h : ∀ x y, E x y → E' x y) {a b} (p : Path E a b) :
    Path E' a b := by
  induction p with
  | one e => exact .one (h _ _ e)
  | cons e _ ih => exact .cons (h _ _ e) ih

theorem Reaches.mono {E E' : ResId → ResId → Prop} (h : ∀ x y, E x y → E' x y) {a b}
    (p : Reaches E a b) : Reaches E' a b := by
  rcases p with rfl | p
  · exact .inl rfl
  · exact .inr (p.mono h)

theorem path_add {E : ResId → ResId → Prop} {a b x y}
    (p : Path (fun x y => E x y ∨ (x = a ∧ y = b)) x y) :
    Path E x y ∨ (Reaches E x a ∧ Reaches E b y) := by
  induction p with
  | one e =>
    rcases e with e | ⟨rfl, rfl⟩
    · exact .inl (.one e)
    · exact .inr ⟨.inl rfl, .inl rfl⟩
  | cons e _ ih =>
    rcases e with e | ⟨rfl, rfl⟩
    · rcases ih with ih | ⟨h1, h2⟩
      · exact .inl (.cons e ih)
      · exact .inr ⟨.step e h1, h2⟩
    · rcases ih with ih | ⟨h1, h2⟩
      · exact .inr ⟨.inl rfl, .inr ih⟩
      · exact .inr ⟨.inl rfl, h2⟩

theorem acyclic_add {E : ResId → ResId → Prop} {a b} (h : Acyclic E) (hn : ¬ Reaches E b a) :
    Acyclic (fun x y => E x y ∨ (x = a ∧ y = b)) := by
  intro x p
  rcases path_add p with p | ⟨h1, h2⟩
  · exact h _ p
  · exact hn (h2.trans h1)

theorem acyclic_iff {E E' : ResId → ResId → Prop} (h : ∀ x y, E x y ↔ E' x y) (ha : Acyclic E) :
    Acyclic E' := fun x p => ha x (p.mono fun a b => (h a b).2)

theorem history_acyclic {E h rs E'} (hh : History E h rs E') (ha : Acyclic E) : Acyclic E' := by
  induction hh with
  | nil => exact ha
  | accept hn _ ih => exact ih (acyclic_add ha hn)
  | refuse _ _ ih => exact ih ha

/-- `History` only looks at the relation extensionally. -/
theorem history_congr {E h rs E'} (hh : History E h rs E') :
    ∀ F, (∀ x y, E x y ↔ F x y) → ∃ F', History F h rs F' ∧ ∀ x y, E' x y ↔ F' x y := by
  induction hh with
  | nil => intro F hF; exact ⟨F, .nil, hF⟩
  | accept hn _ ih =>
    intro F hF
    obtain ⟨F', h1, h2⟩ := ih (fun x y => F x y ∨ (x = _ ∧ y = _)) (fun x y => or_congr (hF x y) Iff.rfl)
    exact ⟨F', .accept (fun hr => hn (hr.mono fun a b => (hF a b).2)) h1, h2⟩
  | refuse hr _ ih =>
    intro F hF
    obtain ⟨F', h1, h2⟩ := ih F hF
    exact ⟨F', .refuse (hr.mono fun a b => (hF a b).1) h1, h2⟩

theorem declareAll_history (h : List (ResId × ResId)) : ∀ g : Graph,
    ∃ g' rs E', declareAll? g h = some (g', rs) ∧ History (Edge g) h rs E' ∧
      ∀ x y, E' x y ↔ Edge g' x y := by
  induction h with
  | nil => intro g; exact ⟨g, [], Edge g, rfl, .nil, fun _ _ => Iff.rfl⟩
  | cons p h ih =>
    intro g
    obtain ⟨a, b⟩ := p
    rcases declare_spec g a b with ⟨hr, hd⟩ | ⟨hr, hd⟩
    · obtain ⟨g', rs, E', h1, h2, h3⟩ := ih g
      exact ⟨g', false :: rs, E', by simp [declareAll?, hd, h1], .refuse hr h2, h3⟩
    · obtain ⟨g', rs, E', h1, h2, h3⟩ := ih (addDep g a b)
      obtain ⟨F', h4, h5⟩ := history_congr h2 _ (fun x y => edge_addDep g a b x y)
      exact ⟨g', true :: rs, F', by simp [declareAll?, hd, h1], .accept hr h4,
        fun x y => (h5 x y).symm.trans (h3 x y)⟩

/-! ## Expansion -/

theorem mem_setAdd (s : List String) (u x : String) : x ∈ setAdd s u ↔ x ∈ s ∨ x = u := by
  unfold setAdd; split
  · constructor
    · exact .inl
    · rintro (h | rfl) <;> assumption
  · simp

theorem mem_addUrn (s : List String) (o : Option String) (x : String) :
    x ∈ addUrn s o ↔ x ∈ s ∨ (o = some x ∧ x ≠ "") := by
  unfold addUrn
  cases o with
  | none => simp
  | some u =>
    simp only
    split
    · rename_i h; subst h
      constructor
      · exact .inl
      · rintro (h | ⟨h, h'⟩)
        · exact h
        · exact absurd (Option.some.inj h).symm h'
    · rename_i h
      rw [mem_setAdd]
      constructor
      · rintro (h | rfl)
        · exact .inl h
        · exact .inr ⟨rfl, h⟩
      · rintro (h | ⟨h, _⟩)
        · exact .inl h
        · exact .inr (Option.some.inj h).symm

/-- What expanding a list of resources achieves. -/
structure ExpandOk (front : Res → Prop) (fromR : Option ResId) (st st' : Expand) : Prop where
  graphMono : ∀ x y, Edge st.graph x y → Edge st'.graph x y
  acyclic : Acyclic (Edge st.graph) → Acyclic (Edge st'.graph)
  graphSound : ∀ x y, Edge st'.graph x y → Edge st.graph x y ∨
    (fromR = some x ∧ ∃ r, front r ∧ r.id = y)
  urnsMono : ∀ u, u ∈ st.urns → u ∈ st'.urns
  sound : ∀ u, u ∈ st'.urns → u ∈ st.urns ∨ ∃ r, front r ∧ HasUrn r u
  complete : ∀ r, front r →
    (∀ u, HasUrn r u → u ∈ st'.urns) ∨ ∃ f, fromR = some f ∧ Reaches (Edge st'.graph) r.id f
  recorded : ∀ r f, front r → fromR = some f →
    Edge st'.graph f r.id ∨ Reaches (Edge st'.graph) r.id f

theorem addLeaf_ok (st : Expand) (r : Res) (fromR : Option ResId) :
    ∃ st', addLeaf st r fromR = some st' ∧ ExpandOk (fun x => x = r) fromR st st' := by
  unfold addLeaf
  cases fromR with
  | none =>
    refine ⟨_, rfl, ⟨fun _ _ h => h, fun h => h, fun _ _ h => .inl h, ?_, ?_, ?_, ?_⟩⟩
    · intro u hu; exact (mem_addUrn _ _ _).2 (.inl hu)
    · intro u hu
      rcases (mem_addUrn _ _ _).1 hu with h | ⟨h1, h2⟩
      · exact .inl h
      · exact .inr ⟨r, rfl, h1, h2⟩
    · intro x hx; subst hx
      exact .inl fun u hu => (mem_addUrn _ _ _).2 (.inr hu)
    · intro _ _ _ h; cases h
  | some f =>
    simp only
    rcases declare_spec st.graph f r.id with ⟨hr, hd⟩ | ⟨hr, hd⟩
    · rw [hd]
      refine ⟨_, rfl, ⟨fun _ _ h => h, fun h => h, fun _ _ h => .inl h, fun _ h => h, fun _ h => .inl h, ?_, ?_⟩⟩
      · intro x hx; subst hx; exact .inr ⟨f, rfl, hr⟩
      · intro x f' hx hf; subst hx; cases hf; exact .inr hr
    · rw [hd]
      refine ⟨_, rfl, ⟨?_, ?_, ?_, ?_, ?_, ?_, ?_⟩⟩
      · intro x y h; exact (edge_addDep _ _ _ _ _).2 (.inl h)
      · intro ha
        exact acyclic_iff (fun x y => (edge_addDep _ _ _ x y).symm) (acyclic_add ha hr)
      · intro x y h
        rcases (edge_addDep _ _ _ _ _).1 h with h | ⟨rfl, rfl⟩
        · exact .inl h
        · exact .inr ⟨rfl, r, rfl, rfl⟩
      · intro u hu; exact (mem_addUrn _ _ _).2 (.inl hu)
      · intro u hu
        rcases (mem_addUrn _ _ _).1 hu with h | ⟨h1, h2⟩
        · exact .inl h
        · exact .inr ⟨r, rfl, h1, h2⟩
      · intro x hx; subst hx
        exact .inl fun u hu => (mem_addUrn _ _ _).2 (.inr hu)
      · intro x f' hx hf; subst hx; cases hf
        exact .inl ((edge_addDep _ _ _ _ _).2 (.inr ⟨rfl, rfl⟩))

theorem ExpandOk.comp {P Q : Res → Prop} {fr st st1 st2} (h1 : ExpandOk P fr st st1)
    (h2 : ExpandOk Q fr st1 st2) : ExpandOk (fun r => P r ∨ Q r) fr st st2 where
  graphMono x y h := h2.graphMono _ _ (h1.graphMono _ _ h)
  acyclic h := h2.acyclic (h1.acyclic h)
  graphSound x y h := by
    rcases h2.graphSound x y h with h | ⟨h, r, hr, he⟩
    · rcases h1.graphSound x y h with h | ⟨h, r, hr, he⟩
      · exact .inl h
      · exact .inr ⟨h, r, .inl hr, he⟩
    · exact .inr ⟨h, r, .inr hr, he⟩
  urnsMono u h := h2.urnsMono _ (h1.urnsMono _ h)
  sound u h := by
    rcases h2.sound u h with h | ⟨r, hr, hu⟩
    · rcases h1.sound u h with h | ⟨r, hr, hu⟩
      · exact .inl h
      · exact .inr ⟨r, .inl hr, hu⟩
    · exact .inr ⟨r, .inr hr, hu⟩
  complete r hr := by
    rcases hr with hr | hr
    · rcases h1.complete r hr with h | ⟨f, hf, h⟩
      · exact .inl fun u hu => h2.urnsMono _ (h u hu)
      · exact .inr ⟨f, hf, h.mono h2.graphMono⟩
    · exact h2.complete r hr
  recorded r f hr hf := by
    rcases hr with hr | hr
    · rcases h1.recorded r f hr hf with h | h
      · exact .inl (h2.graphMono _ _ h)
      · exact .inr (h.mono h2.graphMono)
    · exact h2.recorded r f hr hf

theorem ExpandOk.congr {P Q : Res → Prop} {fr st st'} (hPQ : ∀ r, P r ↔ Q r)
    (h : ExpandOk P fr st st') : ExpandOk Q fr st st' := by
  have : P = Q := funext fun r => propext (hPQ r)
  exact this ▸ h

theorem expandOk_refl (fr st) : ExpandOk (fun _ => False) fr st st :=
  ⟨fun _ _ h => h, fun h => h, fun _ _ h => .inl h, fun _ h => h, fun _ h => .inl h,
    fun _ h => h.elim, fun _ _ h => h.elim⟩

mutual
theorem addDependency_ok (st : Expand) (r : Res) (fr : Option ResId) :
    ∃ st', addDependency st r fr = some st' ∧ ExpandOk (Frontier r) fr st st' := by
  match r with
  | .mk i .localComponent u cs =>
    obtain ⟨st', h1, h2⟩ := addDependencies_ok st cs fr
    refine ⟨st', by rw [addDependency]; exact h1, h2.congr fun x => ?_⟩
    constructor
    · rintro ⟨c, hc, hx⟩; exact .child hc hx
    · intro h; cases h with | child hc hx => exact ⟨_, hc, hx⟩
  | .mk i .custom u cs =>
    obtain ⟨st', h1, h2⟩ := addLeaf_ok st (.mk i .custom u cs) fr
    refine ⟨st', by rw [addDependency]; exact h1; simp, h2.congr fun x => ?_⟩
    constructor
    · rintro rfl; exact .custom
    · intro h; cases h; rfl
  | .mk i .remoteComponent u cs =>
    obtain ⟨st', h1, h2⟩ := addLeaf_ok st (.mk i .remoteComponent u cs) fr
    refine ⟨st', by rw [addDependency]; exact h1; simp, h2.congr fun x => ?_⟩
    constructor
    · rintro rfl; exact .remote
    · intro h; cases h; rfl
theorem addDependencies_ok (st : Expand) (rs : List Res) (fr : Option ResId) :
    ∃ st', addDependencies st rs fr = some st' ∧
      ExpandOk (fun x => ∃ r ∈ rs, Frontier r x) fr st st' := by
  match rs with
  | [] => exact ⟨st, by rw [addDependencies], (expandOk_refl fr st).congr fun x => by simp⟩
  | r :: rs =>
    obtain ⟨st1, h1, h2⟩ := addDependency_ok st r fr
    obtain ⟨st2, h3, h4⟩ := addDependencies_ok st1 rs fr
    refine ⟨st2, by rw [addDependencies, h1]; exact h3, (h2.comp h4).congr fun x => ?_⟩
    simp
end

theorem mem_setUnion (a b : List String) (x : String) : x ∈ setUnion a b ↔ x ∈ a ∨ x ∈ b := by
  unfold setUnion
  induction b generalizing a with
  | nil => simp
  | cons y b ih => simp only [List.foldl_cons, ih, mem_setAdd, List.mem_cons, or_assoc]

theorem mem_dedup (as acc : List (Option String)) (x : Option String) :
    x ∈ dedupAliases acc as ↔ x ∈ acc ∨ x ∈ as := by
  induction as generalizing acc with
  | nil => simp [dedupAliases]
  | cons a as ih =>
    simp only [dedupAliases]
    split
    · rename_i h; rw [ih]; constructor
      · rintro (h | h) <;> simp [h]
      · rintro (h' | h')
        · exact .inl h'
        · rcases List.mem_cons.1 h' with rfl | h'
          · exact .inl h
          · exact .inr h'
    · rw [ih]; simp [or_assoc]

theorem dedup_nodup (as acc : List (Option String)) (h : acc.Nodup) : (dedupAliases acc as).Nodup := by
  induction as generalizing acc with
  | nil => simpa [dedupAliases]
  | cons a as ih =>
    simp only [dedupAliases]
    split
    · exact ih _ h
    · rename_i hn
      apply ih
      rw [List.nodup_append]
      refine ⟨h, by simp, ?_⟩
      intro x hx y hy he
      simp at hy; subst hy; subst he; exact hn hx

theorem dedup_ordered_aux (full : List (Option String)) : ∀ (as pre acc : List (Option String)),
    full = pre ++ as → (∀ x, x ∈ acc ↔ x ∈ pre) →
    acc.Pairwise (fun x y => full.idxOf x < full.idxOf y) →
    (dedupAliases acc as).Pairwise (fun x y => full.idxOf x < full.idxOf y) := by
  intro as
  induction as with
  | nil => intro pre acc _ _ h; simpa [dedupAliases]
  | cons a as ih =>
    intro pre acc hfull hmem hp
    simp only [dedupAliases]
    split
    · rename_i ha
      exact ih (pre ++ [a]) acc (by simp [hfull]) (by
        intro x; rw [hmem]; simp; intro h; subst h; exact (hmem _).1 ha) hp
    · rename_i ha
      apply ih (pre ++ [a]) (acc ++ [a]) (by simp [hfull]) (by intro x; simp [hmem])
      rw [List.pairwise_append]
      refine ⟨hp, by simp, ?_⟩
      intro x hx y hy
      simp at hy; subst hy
      have hx' := (hmem x).1 hx
      have hy' : y ∉ pre := fun h => ha ((hmem y).2 h)
      rw [hfull, List.idxOf_append, List.idxOf_append, if_pos hx', if_neg hy']
      have := List.idxOf_lt_length_iff.2 hx'
      simp; omega

/-- A finite nonempty set has an element without successor inside the set, if the relation is acyclic. -/
theorem exists_sink {E : ResId → ResId → Prop} (ha : Acyclic E) : ∀ (s : List ResId), s ≠ [] →
    ∃ m ∈ s, ∀ y ∈ s, ¬ Path E m y := by
  intro s
  induction s with
  | nil => intro h; exact absurd rfl h
  | cons x xs ih =>
    intro _
    by_cases hxs : xs = []
    · subst hxs
      exact ⟨x, by simp, by simp; exact ha x⟩
    · obtain ⟨m, hm, hmin⟩ := ih hxs
      by_cases hmx : Path E m x
      · refine ⟨x, by simp, ?_⟩
        intro y hy hp
        rcases List.mem_cons.1 hy with rfl | hy
        · exact ha _ hp
        · exact hmin y hy (hmx.trans hp)
      · refine ⟨m, by simp [hm], ?_⟩
        intro y hy hp
        rcases List.mem_cons.1 hy with rfl | hy
        · exact hmx hp
        · exact hmin y hy hp

/-- Edges added out of `f` do not help to reach `f`. -/
theorem reaches_back {E E' : ResId → ResId → Prop} {f : ResId}
    (h : ∀ x y, E' x y → E x y ∨ x = f) {x} (hr : Reaches E' x f) : Reaches E x f := by
  rcases hr with rfl | p
  · exact .inl rfl
  · generalize hf : f = t at p
    induction p with
    | one e =>
      subst hf
      rcases h _ _ e with e | rfl
      · exact .inr (.one e)
      · exact .inl rfl
    | cons e _ ih =>
      subst hf
      rcases h _ _ e with e | rfl
      · exact .step e (ih rfl)
      · exact .inl rfl

/-- A frontier resource that is left out depended on `f` before the expansion started. -/
theorem ExpandOk.complete_initial {P : Res → Prop} {f st st'} (h : ExpandOk P (some f) st st')
    (r : Res) (hr : P r) :
    (∀ u, HasUrn r u → u ∈ st'.urns) ∨ Reaches (Edge st.graph) r.id f := by
  rcases h.complete r hr with h1 | ⟨f', hf, h1⟩
  · exact .inl h1
  · cases hf
    refine .inr (reaches_back ?_ h1)
    intro x y e
    rcases h.graphSound x y e with e | ⟨e, _⟩
    · exact .inl e
    · cases e; exact .inr rfl

end Pulumi.Deps
