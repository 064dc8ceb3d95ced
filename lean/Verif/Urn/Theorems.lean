import Verif.Urn.Lemmas
/-!
# C29, C30, C31, C44: URNs, provider references, aliases
-/
namespace Pulumi.Urn

/-! ## C29 -/

/-- The URN of the last resource of a chain of (type, name) pairs, outermost first, each created with
`create_urn` under the previous one, the first one without parent. -/
def createChain (amb : Ambient) : Option Text → List (Text × Text) → Option Text
  | parent, [] => parent
  | parent, (t, n) :: rest => createChain amb (some (createUrn amb n t parent none none)) rest

/-- C29: the URN of a resource nested at any depth is the documented text: the qualified type is the list of
all the ancestors' types followed by its own. -/
theorem create_urn_chain (amb : Ambient) (hs : amb.stack ≠ []) (hsc : CleanField amb.stack)
    (hss : ∀ a : Text, amb.stack ≠ ':' :: a) (hp : CleanField amb.project)
    (chain : List (Text × Text)) (t n : Text)
    (hc : ∀ x ∈ chain, CleanType x.1 ∧ CleanName x.2) :
    createChain amb none (chain ++ [(t, n)]) =
      some (Urn.mk amb.stack amb.project (chain.map (·.1)) t n).text := by
  -- generalise over a URN already built
  have key : ∀ (chain : List (Text × Text)) (u : Urn), u.Clean →
      (∀ x ∈ chain, CleanType x.1 ∧ CleanName x.2) →
      createChain amb (some u.text) (chain ++ [(t, n)]) =
        some (Urn.mk u.stack u.project (u.ancestors ++ u.type_ :: chain.map (·.1)) t n).text := by
    intro chain
    induction chain with
    | nil =>
      intro u hu _
      simp only [List.nil_append, createChain, createUrn_child amb hu, Urn.child, List.map_nil]
    | cons x chain ih =>
      intro u hu hx
      obtain ⟨t', n'⟩ := x
      have h := hx (t', n') (List.mem_cons_self ..)
      simp only [List.cons_append, createChain, createUrn_child amb hu]
      rw [ih (u.child t' n') (hu.child h.1 h.2) (fun y hy => hx y (List.mem_cons_of_mem _ hy))]
      simp [Urn.child]
  cases chain with
  | nil => simp [createChain, createUrn_root_default, Urn.root]
  | cons x chain =>
    obtain ⟨t', n'⟩ := x
    have h := hc (t', n') (List.mem_cons_self ..)
    simp only [List.cons_append, createChain, createUrn_root_default]
    rw [key chain (Urn.root amb.stack amb.project t' n')
      { stack_ne := hs, stack := hsc, stack_start := hss, project := hp,
        ancestors := by intro x hx; simp [Urn.root] at hx
        type_ := h.1, name := h.2 } (fun y hy => hc y (List.mem_cons_of_mem _ hy))]
    simp [Urn.root]

/-- C29: parsing a URN gives back the name and the type it was built from. -/
theorem parse_urn_text {u : Urn} (h : u.Clean) :
    ∃ p, parseUrn u.text = .ok p ∧ p.urnName = u.name ∧ p.typ = u.type_ := by
  simp [parseUrn, splitSep_text h, getOr, splitChar_qualify (fun x hx => (h.ancestors x hx).2) h.type_.2]

/-- C29: and the package, module and type name of a type `pkg:mod:name`. -/
theorem parse_urn_type {u : Urn} (h : u.Clean) {pkg mod tn : Text} (ht : u.type_ = pkg ++ ':' :: mod ++ ':' :: tn)
    (hp : ':' ∉ pkg) (hm : ':' ∉ mod) (hn : ':' ∉ tn) :
    parseUrn u.text = .ok ⟨u.name, u.type_, pkg, mod, tn⟩ := by
  have e : splitChar ':' u.type_ = [pkg, mod, tn] := by
    rw [ht, List.append_assoc, List.cons_append, splitChar_append hp, splitChar_append hm, splitChar_noSep hn]
  simp [parseUrn, splitSep_text h, getOr, splitChar_qualify (fun x hx => (h.ancestors x hx).2) h.type_.2, e]

/-- C29: creating a resource's URN and parsing it gives back its name and type, whatever its parents. -/
theorem parse_create_urn (amb : Ambient) (hs : amb.stack ≠ []) (hsc : CleanField amb.stack)
    (hss : ∀ a : Text, amb.stack ≠ ':' :: a) (hp : CleanField amb.project)
    (chain : List (Text × Text)) (t n : Text)
    (hc : ∀ x ∈ chain, CleanType x.1 ∧ CleanName x.2) (ht : CleanType t) (hn : CleanName n) :
    ∃ urn p, createChain amb none (chain ++ [(t, n)]) = some urn ∧ parseUrn urn = .ok p ∧
      p.urnName = n ∧ p.typ = t := by
  have hcl : (Urn.mk amb.stack amb.project (chain.map (·.1)) t n).Clean :=
    { stack_ne := hs, stack := hsc, stack_start := hss, project := hp,
      ancestors := by
        intro x hx
        simp only [List.mem_map] at hx
        obtain ⟨y, hy, rfl⟩ := hx
        exact (hc y hy).1
      type_ := ht, name := hn }
  obtain ⟨p, h1, h2, h3⟩ := parse_urn_text hcl
  exact ⟨_, p, create_urn_chain amb hs hsc hss hp chain t n hc, h1, h2, h3⟩

/-- C29: the URN of a child begins with its parent's URN up to the parent's name, then `$`. -/
theorem create_urn_prefix (amb : Ambient) {u : Urn} (h : u.Clean) (t n : Text) :
    ∃ stem, u.text = stem ++ "::".toList ++ u.name ∧
      createUrn amb n t (some u.text) none none = stem ++ '$' :: t ++ "::".toList ++ n := by
  refine ⟨u.stem, ?_, ?_⟩
  · rw [sep_eq, text_eq]
  · rw [createUrn_child amb h, sep_eq, text_eq]
    simp [Urn.stem, Urn.child, qualify_snoc]

theorem rfind_shift (a : Text) {x : Text} {i : Nat} (h : rfindSep? x = some i) :
    rfindSep? (a ++ x) = some (a.length + i) := by
  induction a with
  | nil => simpa using h
  | cons c a ih =>
    simp only [List.cons_append, rfindSep?, ih, List.length_cons]
    congr 1
    omega

theorem rfind_some {x : Text} (h : HasSep x) : ∃ i, rfindSep? x = some i := by
  induction x with
  | nil => exact absurd h (not_hasSep_iff.2 rfl)
  | cons c s ih =>
    rw [hasSep_cons] at h
    simp only [rfindSep?]
    cases hs : rfindSep? s with
    | some i => exact ⟨i + 1, rfl⟩
    | none =>
      rcases h with h | h
      · exact ⟨0, by simp only; rw [if_pos h]⟩
      · obtain ⟨i, hi⟩ := ih h
        rw [hi] at hs
        cases hs

/-- C29: a provider reference parses back to its URN and ID exactly when the ID neither contains `::` nor
starts with a colon; the URN is arbitrary. -/
theorem parse_ref_iff (urn id : Text) : parseRef (makeRef urn id) = .ok (urn, id) ↔ CleanName id := by
  constructor
  · intro h
    unfold parseRef makeRef at h
    have split : ∀ i, rfindSep? (sep ++ id) = some (i + 1) → False := by
      intro i hi
      rw [List.append_assoc, rfind_shift urn hi] at h
      simp only [Except.ok.injEq, Prod.mk.injEq] at h
      have := congrArg List.length h.1
      simp [sep] at this
    constructor
    · intro hs
      obtain ⟨i, hi⟩ := rfind_some hs
      exact split (i + 1) (by rw [rfind_shift sep hi]; simp [sep]; omega)
    · rintro a rfl
      have hs : HasSep (':' :: ':' :: a) := ⟨[], a, by rw [sep_eq]; rfl⟩
      obtain ⟨i, hi⟩ := rfind_some hs
      have : sep ++ ':' :: a = [':'] ++ (':' :: ':' :: a) := rfl
      rw [this] at split
      exact split i (by rw [rfind_shift [':'] hi]; simp; omega)
  · intro h
    unfold parseRef makeRef
    rw [rfindSep_append h]
    simp only [Except.ok.injEq, Prod.mk.injEq]
    constructor
    · rw [List.append_assoc, List.take_left]
    · have : urn.length + 2 = (urn ++ sep).length := by simp [sep]
      rw [this, List.drop_left]

/-! ## C30 -/

/-- C30: `NameUnder` determines the former name. -/
theorem nameUnder_unique {old new n m m' : Text} (h : NameUnder old new n m) (h' : NameUnder old new n m') :
    m = m' := by
  cases h with
  | prefixed s =>
    generalize hx : new ++ s = x at h'
    cases h' with
    | prefixed s' =>
      have := List.append_cancel_left hx
      rw [this]
    | other hn => exact absurd hx.symm (hn s)
  | other hn =>
    cases h' with
    | prefixed s' => exact absurd rfl (hn s')
    | other => rfl

/-- C30: the alias a child inherits is the URN it had when its parent had the aliased URN: same type, under the
old parent, with the parent's name replaced where the child's name extends it. -/
theorem inherited_alias_is_former_urn (amb : Ambient) {old : Urn} (h : old.Clean) (newParentName name t m : Text)
    (hm : NameUnder old.name newParentName name m) :
    inheritedChildAlias amb name newParentName old.text t = (old.child t m).text ∧
      inheritedChildAlias amb name newParentName old.text t = createUrn amb m t (some old.text) none none := by
  rw [createUrn_child amb h]
  exact ⟨inherited_text amb h _ _ _ _ hm, inherited_text amb h _ _ _ _ hm⟩

/-! ## C31 -/

theorem formerName_spec (old new n : Text) : NameUnder old new n (formerName old new n) := by
  unfold formerName
  split
  · rename_i h
    have := h.choose_spec
    generalize h.choose = s at this ⊢
    subst this
    exact .prefixed s
  · rename_i h
    exact .other (fun s hs => h ⟨s, hs⟩)

/-- C31: `N + M * (1 + N)` aliases. -/
theorem all_aliases_count (amb : Ambient) (cas : List AliasInput) (name t : Text) (p : Parent) :
    (allAliases amb (some cas) name t (some p)).length =
      cas.length + p.aliases.length * (1 + cas.length) := by
  have : ∀ l : List (Except Err Text),
      (l.flatMap (aliasesForParentAlias amb cas name t p)).length = l.length * (1 + cas.length) := by
    intro l
    induction l with
    | nil => simp
    | cons a l ih =>
      simp only [List.flatMap_cons, List.length_append, ih, List.length_cons, aliasesForParentAlias,
        List.length_map, Nat.add_mul, Nat.one_mul]
      omega
  simp [allAliases, this]

/-- C31: without a parent the aliases are the resource's own. -/
theorem all_aliases_no_parent (amb : Ambient) (cas : Option (List AliasInput)) (name t : Text) :
    allAliases amb cas name t none = (cas.getD []).map fun ca => collapseAlias amb ca name t none := rfl

theorem flatMap_eq_of_forall {α β γ : Type} (f : α → List γ) (g : β → List γ) (k : β → α)
    (h : ∀ b, f (k b) = g b) (l : List β) : (l.map k).flatMap f = l.flatMap g := by
  induction l with
  | nil => rfl
  | cons b l ih => simp [List.flatMap_cons, h, ih]

/-- C31: when the resource's own aliases denote the URNs `own` and its parent's aliases the URNs `olds`, the
generated aliases are: the resource's own; and for each former parent, the resource under that parent and each
of its own aliases (same type and, up to the parent's renaming, name) under that parent. -/
theorem all_aliases_content (amb : Ambient) (cas : List AliasInput) (name t : Text) (p : Parent)
    (own olds : List Urn) (hown : ∀ u ∈ own, u.Clean) (holds : ∀ u ∈ olds, u.Clean)
    (h1 : cas.map (fun ca => collapseAlias amb ca name t (some p.urn)) = own.map fun u => .ok u.text)
    (h2 : p.aliases = olds.map fun u => .ok u.text) :
    allAliases amb (some cas) name t (some p) =
      own.map (fun u => .ok u.text) ++
      olds.flatMap fun old =>
        .ok (old.child t (formerName old.name p.name name)).text ::
        own.map fun u => .ok (old.child u.type_ (formerName old.name p.name u.name)).text := by
  simp only [allAliases, Option.getD_some, Option.map_some, h1, h2]
  congr 1
  have key : ∀ old ∈ olds, aliasesForParentAlias amb cas name t p (.ok old.text) =
      .ok (old.child t (formerName old.name p.name name)).text ::
        own.map fun u => .ok (old.child u.type_ (formerName old.name p.name u.name)).text := by
    intro old ho
    have hold := holds old ho
    simp only [aliasesForParentAlias, applyOut]
    rw [inherited_text amb hold _ _ _ _ (formerName_spec ..)]
    congr 1
    have : cas.map (fun ca => applyOut (collapseAlias amb ca name t (some p.urn))
          (inheritedForChildUrn amb p (Except.ok old.text))) =
        (cas.map (fun ca => collapseAlias amb ca name t (some p.urn))).map
          (fun x => applyOut x (inheritedForChildUrn amb p (Except.ok old.text))) := by
      rw [List.map_map]; rfl
    simp only [applyOut] at this
    rw [this, h1, List.map_map]
    apply List.map_congr_left
    intro u hu
    simp only [Function.comp, inheritedForChildUrn, urnTypeAndName_text (hown u hu), applyOut]
    rw [inherited_text amb hold _ _ _ _ (formerName_spec ..)]
  clear h2
  induction olds with
  | nil => rfl
  | cons o os ih =>
    simp only [List.map_cons, List.flatMap_cons]
    rw [key o (List.mem_cons_self ..),
      ih (fun u hu => holds u (List.mem_cons_of_mem _ hu)) (fun u hu => key u (List.mem_cons_of_mem _ hu))]

/-! ## C44: what an `Alias` denotes -/

/-- The parent an alias speaks about: the one given, else the resource's current parent. -/
def Alias.effectiveParent (a : Alias) (current : Option Text) : Option Text := a.parent.getD current

/-- C44: an alias whose (given or current) parent is the stack denotes the root URN with the given stack,
project, type and name, each defaulting to the current one. -/
theorem alias_root_partial (amb : Ambient) (a : Alias) (name t : Text) (parent : Option Text)
    {n' t' s' p' : Text} (hn : a.name.getD (some name) = some n') (ht : a.type_.getD (some t) = some t')
    (hs : a.stack.getD (some amb.stack) = some s') (hpr : a.project.getD (some amb.project) = some p')
    (hp : a.effectiveParent parent = none) :
    collapseAlias amb (.alias a) name t parent = .ok (Urn.root s' p' t' n').text := by
  simp only [Alias.effectiveParent] at hp
  simp only [collapseAlias, hn, ht, hs, hpr, hp]
  rw [createUrn_root]

/-- C44: an alias whose (given or current) parent is a resource, and which gives neither stack nor project,
denotes the child of that parent. -/
theorem alias_child_partial (amb : Ambient) (a : Alias) (name t : Text) (parent : Option Text) {u : Urn}
    {n' t' : Text} (hu : u.Clean) (hn : a.name.getD (some name) = some n') (ht : a.type_.getD (some t) = some t')
    (_hs : a.stack = .unset) (_hpr : a.project = .unset) (hp : a.effectiveParent parent = some u.text) :
    collapseAlias amb (.alias a) name t parent = .ok (u.child t' n').text := by
  simp only [Alias.effectiveParent] at hp
  simp only [collapseAlias, hn, ht, hp]
  rw [createUrn_child amb hu]

/-- C44 (what is missing): the stack and the project of an alias are ignored whenever the resource it speaks
about has a parent: two aliases that differ only in them denote the same URN. -/
theorem alias_stack_project_ignored (amb : Ambient) (a : Alias) (name t u : Text) (parent : Option Text)
    (hp : a.effectiveParent parent = some u) (s p : Field (Option Text)) :
    collapseAlias amb (.alias { a with stack := s, project := p }) name t parent =
      collapseAlias amb (.alias a) name t parent := by
  simp only [Alias.effectiveParent] at hp
  simp only [collapseAlias, hp, createUrn]

/-- C44: a plain URN stands for itself, and an alias whose name or type is explicitly `None` is rejected. -/
theorem alias_urn (amb : Ambient) (u name t : Text) (parent : Option Text) :
    collapseAlias amb (.urn u) name t parent = .ok u := rfl

theorem alias_none_rejected (amb : Ambient) (a : Alias) (name t : Text) (parent : Option Text)
    (h : a.name = .given none ∨ a.type_ = .given none) :
    ∃ e, collapseAlias amb (.alias a) name t parent = .error e := by
  simp only [collapseAlias]
  cases h1 : a.name.getD (some name) with
  | none => exact ⟨_, rfl⟩
  | some n =>
    cases h2 : a.type_.getD (some t) with
    | none => exact ⟨_, rfl⟩
    | some t' =>
      rcases h with h | h
      · rw [h] at h1; simp [Field.getD] at h1
      · rw [h] at h2; simp [Field.getD] at h2

/-! ## Concrete cases -/

section Examples

def exUrn : Urn :=
  { stack := ['d', 'e', 'v'], project := ['p'], ancestors := [['a', ':', 'b', ':', 'C']],
    type_ := ['x', ':', 'y', ':', 'Z'], name := ['a', 'p', 'p'] }

theorem not_endsWith {s : Text} (h : s.getLast? ≠ some ':') : ∀ a : Text, s ≠ a ++ [':'] := by
  rintro a rfl
  simp at h

theorem not_startsWith {s : Text} (h : s.head? ≠ some ':') : ∀ a : Text, s ≠ ':' :: a := by
  rintro a rfl
  simp at h

/-- The hypotheses of the theorems above are met by
`urn:pulumi:dev::p::a:b:C$x:y:Z::app`. -/
theorem exUrn_clean : exUrn.Clean where
  stack_ne := by decide
  stack := ⟨not_hasSep_iff.2 (by decide), not_endsWith (by decide)⟩
  stack_start := not_startsWith (by decide)
  project := ⟨not_hasSep_iff.2 (by decide), not_endsWith (by decide)⟩
  ancestors := by
    intro t ht
    simp [exUrn] at ht
    subst ht
    exact ⟨⟨not_hasSep_iff.2 (by decide), not_endsWith (by decide)⟩, by decide⟩
  type_ := ⟨⟨not_hasSep_iff.2 (by decide), not_endsWith (by decide)⟩, by decide⟩
  name := ⟨not_hasSep_iff.2 (by decide), not_startsWith (by decide)⟩

example : exUrn.text = "urn:pulumi:dev::p::a:b:C$x:y:Z::app".toList := by decide

example : parseUrn exUrn.text =
    .ok ⟨['a', 'p', 'p'], ['x', ':', 'y', ':', 'Z'], ['x'], ['y'], ['Z']⟩ :=
  parse_urn_type exUrn_clean (pkg := ['x']) (mod := ['y']) (tn := ['Z']) rfl (by decide) (by decide) (by decide)

/-- `newapp-fn` under `newapp`, formerly `app`, was `app-fn`. -/
example : NameUnder exUrn.name ['n', 'e', 'w', 'a', 'p', 'p'] (['n', 'e', 'w', 'a', 'p', 'p'] ++ ['-', 'f'])
    (exUrn.name ++ ['-', 'f']) := .prefixed _

example (amb : Ambient) : inheritedChildAlias amb ['n', 'e', 'w', '-', 'f'] ['n', 'e', 'w'] exUrn.text ['k'] =
    (exUrn.child ['k'] ['a', 'p', 'p', '-', 'f']).text :=
  (inherited_alias_is_former_urn amb exUrn_clean ['n', 'e', 'w'] ['n', 'e', 'w', '-', 'f'] ['k'] _
    (.prefixed ['-', 'f'])).1

/-- One own alias and one parent alias give three aliases. -/
example : (allAliases ⟨['s'], ['p']⟩ (some [.urn exUrn.text]) ['n'] ['t']
    (some ⟨['n'], exUrn.text, [.ok exUrn.text]⟩)).length = 3 := by
  rw [all_aliases_count]; rfl

/-- The hypotheses of `all_aliases_content` and its conclusion for one own alias and one former parent. -/
example : allAliases ⟨['s'], ['p']⟩ (some [.urn exUrn.text]) ['n'] ['t']
      (some ⟨['n'], exUrn.text, [.ok exUrn.text]⟩) =
    [.ok exUrn.text, .ok (exUrn.child ['t'] (formerName exUrn.name ['n'] ['n'])).text,
      .ok (exUrn.child exUrn.type_ (formerName exUrn.name ['n'] exUrn.name)).text] :=
  all_aliases_content _ _ _ _ _ [exUrn] [exUrn] (by simpa using exUrn_clean) (by simpa using exUrn_clean) rfl rfl

/-- An alias with another name and project of a resource without parent. -/
example (amb : Ambient) : collapseAlias amb (.alias { name := .given (some ['m']), project := .given (some ['q']) })
      ['n'] ['t'] none = .ok (Urn.root amb.stack ['q'] ['t'] ['m']).text :=
  alias_root_partial amb _ _ _ none rfl rfl rfl rfl rfl

/-- An alias with another type of a resource with a parent. -/
example (amb : Ambient) : collapseAlias amb (.alias { type_ := .given (some ['r']) }) ['n'] ['t'] (some exUrn.text) =
    .ok (exUrn.child ['r'] ['n']).text :=
  alias_child_partial amb _ _ _ (some exUrn.text) exUrn_clean rfl rfl rfl rfl rfl

example : ∃ a : Text, parseRef (makeRef ['u'] (':' :: a)) ≠ .ok (['u'], ':' :: a) :=
  ⟨['x'], fun h => ((parse_ref_iff _ _).1 h).2 ['x'] rfl⟩

/-- A chain of two resources in stack `dev` of project `p`. -/
example : createChain ⟨['d', 'e', 'v'], ['p']⟩ none [(['x', ':', 'y', ':', 'Z'], ['a']), (['k'], ['b'])] =
    some "urn:pulumi:dev::p::x:y:Z$k::b".toList := by decide

/-- Changing only the project of an alias of a child resource changes nothing. -/
example (amb : Ambient) : collapseAlias amb (.alias { project := .given (some ['q']) }) ['n'] ['t'] (some exUrn.text) =
    collapseAlias amb (.alias {}) ['n'] ['t'] (some exUrn.text) :=
  alias_stack_project_ignored amb {} _ _ _ _ rfl .unset _

end Examples

end Pulumi.Urn
