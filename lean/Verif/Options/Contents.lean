import Verif.Options.Lemmas
/-! # Lemmas for C32: what the merged bag contains -/
namespace Pulumi.Options

/-- Lists, tuples and dicts stay as they are. -/
def Le (h h' : Heap) : Prop := ∀ (a : Nat) (c : Cell), (∀ o, c ≠ .opts o) → h[a]? = some c → h'[a]? = some c

theorem Le.refl (h : Heap) : Le h h := fun _ _ _ hh => hh
theorem Le.trans {a b c : Heap} (h1 : Le a b) (h2 : Le b c) : Le a c := fun x c hc hh => h2 x c hc (h1 x c hc hh)

theorem get_append {h : Heap} {a : Nat} {c : Cell} (t : Heap) (hh : h[a]? = some c) : (h ++ t)[a]? = some c := by
  have : a < h.length := (List.getElem?_eq_some_iff.1 hh).1
  rw [List.getElem?_append_left this, hh]

theorem Le.append (h t : Heap) : Le h (h ++ t) := fun _ _ _ hh => get_append t hh

theorem get_last (h : Heap) (c : Cell) : (h ++ [c])[h.length]? = some c := by simp

theorem Le.set {h : Heap} {d : Nat} {o : Opts} (hd : h[d]? = some (.opts o)) (c : Cell) : Le h (h.set d c) := by
  intro a c' hc hh
  by_cases he : d = a
  · subst he
    rw [hd] at hh
    cases hh
    exact absurd rfl (hc o)
  · rw [List.getElem?_set_ne he]
    exact hh

theorem ListAt.mono {h h' : Heap} (hl : Le h h') {v : Val} {l : Option (List Val)} (x : ListAt h v l) : ListAt h' v l := by
  cases x with
  | none => exact .none
  | list hx => exact .list (hl _ _ (by simp) hx)

theorem DependsAt.mono {h h' : Heap} (hl : Le h h') {v : Val} {b : Bool} {l : List Val} (x : DependsAt h v b l) :
    DependsAt h' v b l := by
  induction x with
  | none => exact .none
  | one => exact .one
  | list hx => exact .list (hl _ _ (by simp) hx)
  | tuple hx => exact .tuple (hl _ _ (by simp) hx)
  | later hv _ ih => exact .later hv ih

theorem ProvidersAt.mono {h h' : Heap} (hl : Le h h') {v : Val} {l : List Val} (x : ProvidersAt h v l) :
    ProvidersAt h' v l := by
  cases x with
  | none => exact .none
  | list hx => exact .list (hl _ _ (by simp) hx)
  | dict hx => exact .dict (hl _ _ (by simp) hx)

theorem loadOpts_ok {h : Heap} {a : Nat} {o : Opts} (hh : h[a]? = some (.opts o)) : loadOpts a h = (.ok o, h) := by
  simp [loadOpts, hh]

theorem assign_ok {h : Heap} {a : Nat} {o : Opts} (hh : h[a]? = some (.opts o)) (f : Opts → Opts) :
    assign a f h = (.ok (), h.set a (.opts (f o))) := by simp [assign, hh]

theorem get_set {h : Heap} {a : Nat} {o : Opts} (hh : h[a]? = some (.opts o)) (c : Cell) : (h.set a c)[a]? = some c := by
  have : a < h.length := (List.getElem?_eq_some_iff.1 hh).1
  simp [this]

theorem mergeLists_run {h : Heap} {d s : Val} {l1 l2 : Option (List Val)} (h1 : ListAt h d l1) (h2 : ListAt h s l2) :
    ∃ v t, mergeLists d s h = (.ok v, h ++ t) ∧ ListAt (h ++ t) v (joined l1 l2) := by
  cases h1 with
  | none =>
    refine ⟨s, [], by simp [mergeLists, pureH], ?_⟩
    rw [List.append_nil]
    cases h2 with
    | none => exact .none
    | list hx => exact .list hx
  | @list a xs hx =>
    cases h2 with
    | none =>
      refine ⟨.ref a, [], by simp [mergeLists, pureH], ?_⟩
      rw [List.append_nil]
      have : joined (some xs) none = some xs := by simp [joined]
      rw [this]
      exact .list hx
    | @list b ys hy =>
      refine ⟨.ref h.length, [.list (xs ++ ys)], ?_, .list (get_last ..)⟩
      simp [mergeLists, addLists, bindH, load, hx, hy, alloc, pureH]

theorem checkKeys_run {pkg : Nat → Option String} {kvs : List (String × Val)} (hp : ∀ p ∈ kvs.map (·.2), IsProvider pkg p)
    (h : Heap) : checkKeys pkg kvs h = (.ok (), h) := by
  induction kvs with
  | nil => rfl
  | cons p kvs ih =>
    obtain ⟨n, s, he, hs⟩ := hp p.2 (by simp)
    rw [checkKeys, bindH, he]
    simp only [packageOf, hs, pureH]
    exact ih fun q hq => hp q (by simp at hq ⊢; exact .inr hq)

theorem expand_run {pkg : Nat → Option String} {h : Heap} {v : Val} {ps : List Val} (hv : ProvidersAt h v ps)
    (hp : ∀ p ∈ ps, IsProvider pkg p) :
    ∃ v' t l, expandProviders pkg v h = (.ok v', h ++ t) ∧ ListAt (h ++ t) v' l ∧ l.getD [] = ps := by
  cases hv with
  | none => exact ⟨.none, [], none, by simp [expandProviders, pureH], .none, rfl⟩
  | @list a xs hx =>
    refine ⟨.ref a, [], some ps, ?_, .list (by rw [List.append_nil]; exact hx), rfl⟩
    simp [expandProviders, bindH, load, hx, pureH]
  | @dict a kvs hx =>
    refine ⟨.ref h.length, [.list (kvs.map (·.2))], some (kvs.map (·.2)), ?_, .list (get_last ..), rfl⟩
    simp [expandProviders, bindH, load, hx, pureH, checkKeys_run hp, alloc]

/-- What `_depends_on_list` and the merge of two of them give. -/
inductive DepList (h : Heap) : Val → Bool → List Val → Prop
  | now {a xs} : h[a]? = some (.list xs) → DepList h (.ref a) false xs
  | later {a xs} : h[a]? = some (.list xs) → DepList h (.out (.ref a)) true xs

theorem DepList.mono {h h' : Heap} (hl : Le h h') {v : Val} {b : Bool} {l : List Val} (x : DepList h v b l) :
    DepList h' v b l := by
  cases x with
  | now hx => exact .now (hl _ _ (by simp) hx)
  | later hx => exact .later (hl _ _ (by simp) hx)

theorem DepList.depends {h : Heap} {v : Val} {b : Bool} {l : List Val} (x : DepList h v b l) : DependsAt h v b l := by
  cases x with
  | now hx => exact .list hx
  | later hx => exact .later (by simp) (.list hx)

theorem toList_run {h : Heap} {v : Val} {xs : List Val} (hv : DependsAt h v false xs) (hne : v ≠ .none) :
    ∃ t, toList v h = (.ok (.ref h.length), h ++ t) ∧ (h ++ t)[h.length]? = some (.list xs) := by
  cases hv with
  | none => exact absurd rfl hne
  | one => exact ⟨[.list [.obj _]], by simp [toList, bindH, alloc, pureH], get_last ..⟩
  | list hx => exact ⟨[.list xs], by simp [toList, bindH, load, hx, alloc, pureH], get_last ..⟩
  | tuple hx => exact ⟨[.list xs], by simp [toList, bindH, load, hx, alloc, pureH], get_last ..⟩

theorem dependsOnList_run {h : Heap} {o : Opts} {b : Bool} {xs : List Val} (hv : DependsAt h o.dependsOn b xs) :
    ∃ v t, dependsOnList o h = (.ok v, h ++ t) ∧ DepList (h ++ t) v b xs := by
  by_cases hn : o.dependsOn = .none
  · rw [hn] at hv
    cases hv
    exact ⟨.ref h.length, [.list []], by simp [dependsOnList, hn, bindH, alloc, pureH], .now (get_last ..)⟩
  · have hd : dependsOnList o = mapInput toList o.dependsOn := by simp [dependsOnList, hn]
    rw [hd]
    generalize o.dependsOn = w at hv hn
    cases hv with
    | none => exact absurd rfl hn
    | @later v _ hvn hv' =>
      obtain ⟨t, h1, h2⟩ := toList_run hv' hvn
      exact ⟨.out (.ref h.length), t, by simp [mapInput, bindH, h1, pureH], .later h2⟩
    | one =>
      obtain ⟨t, h1, h2⟩ := toList_run (h := h) .one hn
      exact ⟨.ref h.length, t, by simpa [mapInput] using h1, .now h2⟩
    | list hx =>
      obtain ⟨t, h1, h2⟩ := toList_run (h := h) (.list hx) hn
      exact ⟨.ref h.length, t, by simpa [mapInput] using h1, .now h2⟩
    | tuple hx =>
      obtain ⟨t, h1, h2⟩ := toList_run (h := h) (.tuple hx) hn
      exact ⟨.ref h.length, t, by simpa [mapInput] using h1, .now h2⟩

theorem addLists_run {h : Heap} {a b : Nat} {xs ys : List Val} (hx : h[a]? = some (.list xs)) (hy : h[b]? = some (.list ys)) :
    addLists (.ref a) (.ref b) h = (.ok (.ref h.length), h ++ [.list (xs ++ ys)]) := by
  simp [addLists, bindH, load, hx, hy, alloc, pureH]

theorem map2_run {h : Heap} {v w : Val} {b c : Bool} {xs ys : List Val} (hv : DepList h v b xs) (hw : DepList h w c ys) :
    ∃ r t, map2Input addLists v w h = (.ok r, h ++ t) ∧ DepList (h ++ t) r (b || c) (xs ++ ys) := by
  cases hv with
  | now hx =>
    cases hw with
    | now hy => exact ⟨_, _, addLists_run hx hy, .now (get_last ..)⟩
    | later hy => exact ⟨_, _, by simp only [map2Input, bindH, addLists_run hx hy]; rfl, .later (get_last ..)⟩
  | later hx =>
    cases hw with
    | now hy => exact ⟨_, _, by simp only [map2Input, bindH, addLists_run hx hy]; rfl, .later (get_last ..)⟩
    | later hy => exact ⟨_, _, by simp only [map2Input, bindH, addLists_run hx hy]; rfl, .later (get_last ..)⟩

/-! ## Providers by package -/

/-- `byPackage` without the heap. -/
def collapsed (pkg : Nat → Option String) (acc : List (String × Val)) : List Val → List (String × Val)
  | [] => acc
  | p :: rest =>
    match p with
    | .obj n => collapsed pkg (setKey acc ((pkg n).getD "") p) rest
    | _ => collapsed pkg acc rest

theorem byPackage_run {pkg : Nat → Option String} {xs : List Val} (hp : ∀ p ∈ xs, IsProvider pkg p) (h : Heap) :
    ∀ acc, byPackage pkg acc xs h = (.ok (collapsed pkg acc xs), h) := by
  induction xs with
  | nil => intro acc; rfl
  | cons p xs ih =>
    intro acc
    obtain ⟨n, s, rfl, hs⟩ := hp p (List.mem_cons_self ..)
    rw [byPackage, bindH]
    simp only [packageOf, hs, pureH]
    rw [ih (fun q hq => hp q (List.mem_cons_of_mem _ hq))]
    simp [collapsed, hs]

theorem collapse_run {pkg : Nat → Option String} {h : Heap} {dest : Nat} {o : Opts} {l : Option (List Val)}
    (hd : h[dest]? = some (.opts o)) (hl : ListAt h o.providers l) (hp : ∀ p ∈ l.getD [], IsProvider pkg p) :
    ∃ v h', collapseProviders pkg dest h = (.ok (), h') ∧ h'[dest]? = some (.opts { o with providers := v }) ∧ Le h h' ∧
      ((l.getD [] = [] ∧ v = .none) ∨
        l.getD [] ≠ [] ∧ ∃ a, v = .ref a ∧ h'[a]? = some (.dict (collapsed pkg [] (l.getD [])))) := by
  obtain ⟨o1, ho⟩ : ∃ v, v = o.providers := ⟨_, rfl⟩
  rw [← ho] at hl
  cases hl with
  | none =>
    refine ⟨.none, h, ?_, ?_, Le.refl h, .inl ⟨rfl, rfl⟩⟩
    · simp [collapseProviders, bindH, loadOpts_ok hd, ← ho, pureH]
    · rw [hd, ho]
  | @list a xs hx =>
    by_cases hxs : xs = []
    · subst hxs
      refine ⟨.none, h.set dest (.opts { o with providers := .none }), ?_, get_set hd _, Le.set hd _, .inl ⟨rfl, rfl⟩⟩
      simp [collapseProviders, bindH, loadOpts_ok hd, ← ho, load, hx, assign_ok hd]
    · have hd' := get_append [Cell.dict (collapsed pkg [] xs)] hd
      refine ⟨.ref h.length, (h ++ [Cell.dict (collapsed pkg [] xs)]).set dest (.opts { o with providers := .ref h.length }), ?_,
        get_set hd' _, (Le.append h _).trans (Le.set hd' _), .inr ⟨hxs, h.length, rfl, ?_⟩⟩
      · simp only [Option.getD_some] at hp
        simp [collapseProviders, bindH, loadOpts_ok hd, ← ho, load, hx, hxs, byPackage_run hp, alloc, assign_ok hd']
      · exact Le.set hd' _ _ _ (by simp) (get_last ..)

/-! ## The whole merge -/

theorem set_other {h : Heap} {d a : Nat} {c x : Cell} (hne : d ≠ a) (hh : h[a]? = some x) : (h.set d c)[a]? = some x := by
  rw [List.getElem?_set_ne hne, hh]

theorem collections_run {pkg : Nat → Option String} {h : Heap} {dest source : Nat} {d s : Opts} (hne : dest ≠ source)
    (hd : h[dest]? = some (.opts d)) (hs : h[source]? = some (.opts s)) {c1 c2 : Coll → Option (List Val)}
    {b1 b2 : Bool} {x1 x2 p1 p2 : List Val}
    (hc1 : ∀ f, ListAt h (d.coll f) (c1 f)) (hc2 : ∀ f, ListAt h (s.coll f) (c2 f))
    (hx1 : DependsAt h d.dependsOn b1 x1) (hx2 : DependsAt h s.dependsOn b2 x2)
    (hp1 : ProvidersAt h d.providers p1) (hp2 : ProvidersAt h s.providers p2)
    (hi1 : ∀ p ∈ p1, IsProvider pkg p) (hi2 : ∀ p ∈ p2, IsProvider pkg p) :
    ∃ h' o l, mergeCollections pkg dest source h = (.ok (), h') ∧ h'[dest]? = some (.opts o) ∧
      h'[source]? = some (.opts s) ∧ Le h h' ∧ (∀ f, o.scalar f = d.scalar f) ∧ o.mergeSelf = d.mergeSelf ∧
      (∀ f, ListAt h' (o.coll f) (joined (c1 f) (c2 f))) ∧ DependsAt h' o.dependsOn (b1 || b2) (x1 ++ x2) ∧
      ListAt h' o.providers l ∧ l.getD [] = p1 ++ p2 := by
  unfold mergeCollections
  rw [bindH, loadOpts_ok hd]; dsimp only
  rw [bindH, loadOpts_ok hs]; dsimp only
  -- providers
  obtain ⟨v1, t1, l1, e1, q1, g1⟩ := expand_run hp1 hi1
  rw [bindH, e1]; dsimp only
  have L1 : Le h (h ++ t1) := Le.append _ _
  obtain ⟨v2, t2, l2, e2, q2, g2⟩ := expand_run (hp2.mono L1) hi2
  rw [bindH, e2]; dsimp only
  obtain ⟨v3, t3, e3, q3⟩ := mergeLists_run (q1.mono (Le.append _ t2)) q2
  rw [bindH, e3]; dsimp only
  have hd3 := get_append t3 (get_append t2 (get_append t1 hd))
  have hs3 := get_append t3 (get_append t2 (get_append t1 hs))
  have L3 : Le h (h ++ t1 ++ t2 ++ t3) := (L1.trans (Le.append _ _)).trans (Le.append _ _)
  generalize h ++ t1 ++ t2 ++ t3 = h3 at *
  rw [bindH, assign_ok hd3]; dsimp only
  obtain ⟨o4, ho4⟩ : ∃ o, o = { d with providers := v3 } := ⟨_, rfl⟩
  have hd4 := get_set hd3 (Cell.opts { d with providers := v3 })
  have hs4 := set_other (c := Cell.opts { d with providers := v3 }) hne hs3
  have L34 := Le.set hd3 (Cell.opts { d with providers := v3 })
  have L4 := L3.trans L34
  have q4 := q3.mono L34
  generalize h3.set dest (Cell.opts { d with providers := v3 }) = h4 at *
  -- depends_on
  obtain ⟨v5, t5, e5, q5⟩ := dependsOnList_run (hx1.mono L4)
  rw [bindH, e5]; dsimp only
  obtain ⟨v6, t6, e6, q6⟩ := dependsOnList_run (hx2.mono (L4.trans (Le.append _ t5)))
  rw [bindH, e6]; dsimp only
  obtain ⟨v7, t7, e7, q7⟩ := map2_run (q5.mono (Le.append _ t6)) q6
  rw [bindH, e7]; dsimp only
  have hd7 := get_append t7 (get_append t6 (get_append t5 hd4))
  have hs7 := get_append t7 (get_append t6 (get_append t5 hs4))
  have L47 : Le h4 (h4 ++ t5 ++ t6 ++ t7) := ((Le.append _ t5).trans (Le.append _ _)).trans (Le.append _ _)
  generalize h4 ++ t5 ++ t6 ++ t7 = h7 at *
  rw [bindH, assign_ok hd7]; dsimp only
  have hd8 := get_set hd7 (Cell.opts { d with providers := v3, dependsOn := v7 })
  have hs8 := set_other (c := Cell.opts { d with providers := v3, dependsOn := v7 }) hne hs7
  have L78 := Le.set hd7 (Cell.opts { d with providers := v3, dependsOn := v7 })
  have L8 := L4.trans (L47.trans L78)
  have p8 := q4.mono (L47.trans L78)
  have x8 := q7.mono L78
  generalize h7.set dest (Cell.opts { d with providers := v3, dependsOn := v7 }) = h8 at *
  -- the lists
  obtain ⟨w1, u1, f1, r1⟩ := mergeLists_run ((hc1 .ignoreChanges).mono L8) ((hc2 .ignoreChanges).mono L8)
  simp only [Opts.coll] at f1
  rw [bindH, f1]; dsimp only
  have hd9 := get_append u1 hd8
  have hs9 := get_append u1 hs8
  have L9 := Le.append h8 u1
  generalize h8 ++ u1 = h9 at *
  rw [bindH, assign_ok hd9]; dsimp only
  obtain ⟨o10, ho10⟩ : ∃ o, o = { d with providers := v3, dependsOn := v7, ignoreChanges := w1 } := ⟨_, rfl⟩
  rw [← ho10]
  have hd10 := get_set hd9 (Cell.opts o10)
  have hs10 := set_other (c := Cell.opts o10) hne hs9
  have L10 := Le.set hd9 (Cell.opts o10)
  generalize h9.set dest (Cell.opts o10) = h10 at *
  have M10 := L8.trans (L9.trans L10)
  obtain ⟨w2, u2, f2, r2⟩ := mergeLists_run ((hc1 .replaceOnChanges).mono M10) ((hc2 .replaceOnChanges).mono M10)
  simp only [Opts.coll] at f2
  rw [bindH, f2]; dsimp only
  have hd11 := get_append u2 hd10
  have hs11 := get_append u2 hs10
  have L11 := Le.append h10 u2
  generalize h10 ++ u2 = h11 at *
  rw [bindH, assign_ok hd11]; dsimp only
  obtain ⟨o12, ho12⟩ : ∃ o, o = { o10 with replaceOnChanges := w2 } := ⟨_, rfl⟩
  rw [← ho12]
  have hd12 := get_set hd11 (Cell.opts o12)
  have hs12 := set_other (c := Cell.opts o12) hne hs11
  have L12 := Le.set hd11 (Cell.opts o12)
  generalize h11.set dest (Cell.opts o12) = h12 at *
  have M12 := M10.trans (L11.trans L12)
  obtain ⟨w3, u3, f3, r3⟩ := mergeLists_run ((hc1 .aliases).mono M12) ((hc2 .aliases).mono M12)
  simp only [Opts.coll] at f3
  rw [bindH, f3]; dsimp only
  have hd13 := get_append u3 hd12
  have hs13 := get_append u3 hs12
  have L13 := Le.append h12 u3
  generalize h12 ++ u3 = h13 at *
  rw [bindH, assign_ok hd13]; dsimp only
  obtain ⟨o14, ho14⟩ : ∃ o, o = { o12 with aliases := w3 } := ⟨_, rfl⟩
  rw [← ho14]
  have hd14 := get_set hd13 (Cell.opts o14)
  have hs14 := set_other (c := Cell.opts o14) hne hs13
  have L14 := Le.set hd13 (Cell.opts o14)
  generalize h13.set dest (Cell.opts o14) = h14 at *
  have M14 := M12.trans (L13.trans L14)
  obtain ⟨w4, u4, f4, r4⟩ := mergeLists_run ((hc1 .additionalSecretOutputs).mono M14) ((hc2 .additionalSecretOutputs).mono M14)
  simp only [Opts.coll] at f4
  rw [bindH, f4]; dsimp only
  have hd15 := get_append u4 hd14
  have hs15 := get_append u4 hs14
  have L15 := Le.append h14 u4
  generalize h14 ++ u4 = h15 at *
  rw [bindH, assign_ok hd15]; dsimp only
  obtain ⟨o16, ho16⟩ : ∃ o, o = { o14 with additionalSecretOutputs := w4 } := ⟨_, rfl⟩
  rw [← ho16]
  have hd16 := get_set hd15 (Cell.opts o16)
  have hs16 := set_other (c := Cell.opts o16) hne hs15
  have L16 := Le.set hd15 (Cell.opts o16)
  generalize h15.set dest (Cell.opts o16) = h16 at *
  have M16 := M14.trans (L15.trans L16)
  obtain ⟨w5, u5, f5, r5⟩ := mergeLists_run ((hc1 .transformations).mono M16) ((hc2 .transformations).mono M16)
  simp only [Opts.coll] at f5
  rw [bindH, f5]; dsimp only
  have hd17 := get_append u5 hd16
  have hs17 := get_append u5 hs16
  have L17 := Le.append h16 u5
  generalize h16 ++ u5 = h17 at *
  rw [assign_ok hd17]
  obtain ⟨o18, ho18⟩ : ∃ o, o = { o16 with transformations := w5 } := ⟨_, rfl⟩
  rw [← ho18]
  have hd18 := get_set hd17 (Cell.opts o18)
  have hs18 := set_other (c := Cell.opts o18) hne hs17
  have L18 := Le.set hd17 (Cell.opts o18)
  generalize h17.set dest (Cell.opts o18) = h18 at *
  have N16 := L17.trans L18
  have N14 := L15.trans (L16.trans N16)
  have N12 := L13.trans (L14.trans N14)
  have N10 := L11.trans (L12.trans N12)
  have N8 := L9.trans (L10.trans N10)
  refine ⟨h18, o18, joined l1 l2, rfl, hd18, hs18, M16.trans N16, ?_, ?_, ?_, ?_, ?_, ?_⟩
  · intro f; subst ho18 ho16 ho14 ho12 ho10; cases f <;> rfl
  · subst ho18 ho16 ho14 ho12 ho10; rfl
  · intro f
    subst ho18 ho16 ho14 ho12 ho10
    cases f with
    | ignoreChanges => exact r1.mono (L10.trans N10)
    | replaceOnChanges => exact r2.mono (L12.trans N12)
    | aliases => exact r3.mono (L14.trans N14)
    | additionalSecretOutputs => exact r4.mono (L16.trans N16)
    | transformations => exact r5.mono L18
  · subst ho18 ho16 ho14 ho12 ho10
    exact (x8.mono N8).depends
  · subst ho18 ho16 ho14 ho12 ho10
    exact p8.mono N8
  · rw [← g1, ← g2]
    cases l1 <;> cases l2 <;> simp [joined]

theorem scalars_run {h : Heap} {dest source : Nat} {d s : Opts} (hd : h[dest]? = some (.opts d))
    (hs : h[source]? = some (.opts s)) :
    ∃ h' o, mergeScalars dest source h = (.ok (), h') ∧ h'[dest]? = some (.opts o) ∧ Le h h' ∧
      (∀ f, o.scalar f = if s.scalar f = .none then d.scalar f else s.scalar f) ∧ (∀ f, o.coll f = d.coll f) ∧
      o.dependsOn = d.dependsOn ∧ o.providers = d.providers ∧ o.mergeSelf = d.mergeSelf := by
  unfold mergeScalars
  rw [bindH, loadOpts_ok hs]
  dsimp only
  rw [assign_ok hd]
  refine ⟨_, _, rfl, get_set hd _, Le.set hd _, ?_, ?_, rfl, rfl, rfl⟩
  · intro f; cases f <;> rfl
  · intro f; cases f <;> rfl

/-- The bag that an argument stands for. -/
theorem asOptions_run {pkg : Nat → Option String} {h : Heap} {v : Val} {s : Seen} (hv : Sees pkg h v s) :
    ∃ a o t, asOptions v h = (.ok a, h ++ t) ∧ (h ++ t)[a]? = some (.opts o) ∧ (∀ f, o.scalar f = s.scalar f) ∧
      (∀ f, ListAt h (o.coll f) (s.coll f)) ∧ DependsAt h o.dependsOn s.later s.dependsOn ∧
      ProvidersAt h o.providers s.providers ∧ (∀ p ∈ s.providers, IsProvider pkg p) ∧
      ((v = .ref a ∧ h[a]? = some (.opts o)) ∨ v = .none ∧ o.mergeSelf = a ∧ a = h.length) := by
  cases hv with
  | none =>
    refine ⟨h.length, { mergeSelf := h.length }, [.opts { mergeSelf := h.length }], rfl, get_last .., ?_, ?_, .none, .none, ?_,
      .inr ⟨rfl, rfl, rfl⟩⟩
    · intro f; cases f <;> rfl
    · intro f; cases f <;> exact .none
    · intro p hp; cases hp
  | @opts a o s ha h1 h2 h3 h4 h5 =>
    refine ⟨a, o, [], by simp [asOptions, ha], by rw [List.append_nil]; exact ha, h1, h2, h3, h4, h5, .inl ⟨rfl, ha⟩⟩

theorem copy_run {h : Heap} {a : Nat} {o : Opts} (ha : h[a]? = some (.opts o)) :
    copyOptions a h = (.ok h.length, h ++ [.opts o]) := by
  unfold copyOptions
  rw [bindH, loadOpts_ok ha]
  rfl

theorem merge_run {pkg : Nat → Option String} {h : Heap} {v w : Val} {s1 s2 : Seen} (hv : Sees pkg h v s1)
    (hw : Sees pkg h w s2) :
    ∃ r h' o, merge pkg v w h = (.ok r, h') ∧ h.length ≤ r ∧ h'[r]? = some (.opts o) ∧ Le h h' ∧
      (∀ f, o.scalar f = if s2.scalar f = .none then s1.scalar f else s2.scalar f) ∧
      (∀ f, ListAt h' (o.coll f) (joined (s1.coll f) (s2.coll f))) ∧
      DependsAt h' o.dependsOn (s1.later || s2.later) (s1.dependsOn ++ s2.dependsOn) ∧
      ((s1.providers ++ s2.providers = [] ∧ o.providers = .none) ∨
        s1.providers ++ s2.providers ≠ [] ∧
          ∃ a, o.providers = .ref a ∧ h'[a]? = some (.dict (collapsed pkg [] (s1.providers ++ s2.providers)))) ∧
      (∀ a o1, v = .ref a → h[a]? = some (.opts o1) → o.mergeSelf = o1.mergeSelf) ∧ (v = .none → o.mergeSelf = h.length) := by
  obtain ⟨a1, o1, t1, e1, g1, u1, c1, x1, p1, i1, m1⟩ := asOptions_run hv
  have hw' : Sees pkg (h ++ t1) w s2 := by
    cases hw with
    | none => exact .none
    | opts ha h1 h2 h3 h4 h5 =>
      have L := Le.append h t1
      exact .opts (get_append _ ha) h1 (fun f => (h2 f).mono L) (h3.mono L) (h4.mono L) h5
  obtain ⟨a2, o2, t2, e2, g2, u2, c2, x2, p2, i2, m2⟩ := asOptions_run hw'
  have L1 := Le.append h t1
  have L2 := Le.append (h ++ t1) t2
  have g1' := get_append t2 g1
  have hlen : h.length ≤ (h ++ t1 ++ t2).length := by simp only [List.length_append]; omega
  unfold merge
  rw [bindH, e1]; dsimp only
  rw [bindH, e2]; dsimp only
  generalize h ++ t1 ++ t2 = h2 at *
  rw [bindH, copy_run g1']; dsimp only
  have g2' := get_append [.opts o1] g2
  rw [bindH, copy_run g2']; dsimp only
  have hd := get_append [.opts o2] (get_last h2 (.opts o1))
  have hs := get_last (h2 ++ [.opts o1]) (.opts o2)
  have hne : h2.length ≠ (h2 ++ [Cell.opts o1]).length := by simp
  have L3 : Le h2 (h2 ++ [.opts o1] ++ [.opts o2]) := (Le.append _ _).trans (Le.append _ _)
  generalize (h2 ++ [Cell.opts o1]).length = src at *
  generalize hdst : h2.length = dst at *
  generalize h2 ++ [.opts o1] ++ [.opts o2] = h4 at *
  have K1 := L1.trans (L2.trans L3)
  have K2 := L2.trans L3
  obtain ⟨h5, o5, l5, e5, d5, s5, L5, w5, m5, c5, x5, p5, q5⟩ := collections_run (pkg := pkg) hne hd hs
    (fun f => (c1 f).mono K1) (fun f => (c2 f).mono K2) (x1.mono K1) (x2.mono K2) (p1.mono K1) (p2.mono K2) i1 i2
  rw [bindH, e5]; dsimp only
  obtain ⟨h6, o6, e6, d6, L6, w6, c6, x6, p6, m6⟩ := scalars_run d5 s5
  rw [bindH, e6]; dsimp only
  have hp : ∀ p ∈ l5.getD [], IsProvider pkg p := by
    rw [q5]
    intro p hp
    rcases List.mem_append.1 hp with hp | hp
    · exact i1 p hp
    · exact i2 p hp
  obtain ⟨v7, h7, e7, d7, L7, w7⟩ := collapse_run (pkg := pkg) d6 ((p6 ▸ p5).mono L6) hp
  rw [bindH, e7]; dsimp only
  rw [pureH]
  refine ⟨dst, h7, _, rfl, hlen, d7, K1.trans (L5.trans (L6.trans L7)), ?_, ?_, ?_, ?_, ?_, ?_⟩
  · intro f
    have : ({ o6 with providers := v7 } : Opts).scalar f = o6.scalar f := by cases f <;> rfl
    rw [this, w6, w5, u1, u2]
  · intro f
    have : ({ o6 with providers := v7 } : Opts).coll f = o6.coll f := by cases f <;> rfl
    rw [this, c6]
    exact (c5 f).mono (L6.trans L7)
  · show DependsAt h7 o6.dependsOn _ _
    rw [x6]
    exact x5.mono (L6.trans L7)
  · rw [q5] at w7
    exact w7
  · intro a o1' ha ho
    show o6.mergeSelf = _
    rw [m6, m5]
    rcases m1 with ⟨hv1, ho1⟩ | ⟨hv1, _, _⟩
    · rw [hv1] at ha
      cases ha
      rw [ho1] at ho
      cases ho
      rfl
    · rw [hv1] at ha
      cases ha
  · intro hn
    show o6.mergeSelf = _
    rw [m6, m5]
    rcases m1 with ⟨hv1, _⟩ | ⟨_, hm, ha⟩
    · rw [hv1] at hn
      cases hn
    · rw [hm, ha]

end Pulumi.Options
