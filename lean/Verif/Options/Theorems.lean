import Verif.Options.Packages
/-! # C32: merging option bags -/
namespace Pulumi.Options

/-- **C32.** The contents of the merge of two bags: a scalar comes from the second bag unless it is None there; lists,
dependencies and providers are those of the first bag followed by those of the second; the providers are keyed by package
and for a package the last one given wins. The result is an object that did not exist before. -/
theorem merge_contents {pkg : Nat → Option String} {h : Heap} {v w : Val} {s1 s2 : Seen} (hv : Sees pkg h v s1)
    (hw : Sees pkg h w s2) :
    ∃ r h' o, merge pkg v w h = (.ok r, h') ∧ h.length ≤ r ∧ h'[r]? = some (.opts o) ∧
      (∀ f, o.scalar f = if s2.scalar f = .none then s1.scalar f else s2.scalar f) ∧
      (∀ f, ListAt h' (o.coll f) (joined (s1.coll f) (s2.coll f))) ∧
      DependsAt h' o.dependsOn (s1.later || s2.later) (s1.dependsOn ++ s2.dependsOn) ∧
      (s1.providers ++ s2.providers = [] → o.providers = .none) ∧
      (s1.providers ++ s2.providers ≠ [] → ∃ a kvs, o.providers = .ref a ∧ h'[a]? = some (.dict kvs) ∧
        (kvs.map (·.1)).Nodup ∧
        ∀ k p, kvs.lookup k = some p ↔ ∃ l r, s1.providers ++ s2.providers = l ++ p :: r ∧ ProviderFor pkg p k ∧
          ∀ q ∈ r, ¬ ProviderFor pkg q k) := by
  obtain ⟨r, h', o, h1, h2, h3, _, h5, h6, h7, h8, _⟩ := merge_run hv hw
  refine ⟨r, h', o, h1, h2, h3, h5, h6, h7, ?_, ?_⟩
  · intro hn
    rcases h8 with ⟨_, h8⟩ | ⟨h8, _⟩
    · exact h8
    · exact absurd hn h8
  · intro hn
    rcases h8 with ⟨h8, _⟩ | ⟨_, a, ha, hd⟩
    · exact absurd h8 hn
    · refine ⟨a, _, ha, hd, collapsed_nodup _ _ _ (by simp), fun k p => collapsed_lookup ?_ k p⟩
      intro p hp
      rcases List.mem_append.1 hp with hp | hp
      · cases hv with
        | none => cases hp
        | opts _ _ _ _ _ hi => exact hi p hp
      · cases hw with
        | none => cases hp
        | opts _ _ _ _ _ hi => exact hi p hp

/-- **C32.** Whatever the two arguments are, and also when `merge` raises, every object that existed before is as it was:
neither of the bags merged, nor any list or dict in them, is changed. -/
theorem merge_keeps_arguments (pkg : Nat → Option String) (v w : Val) (h : Heap) (a : Nat) (ha : a < h.length) :
    (merge pkg v w h).2[a]? = h[a]? :=
  ((keeps_merge (n := h.length) pkg v w) h (Nat.le_refl _)).2 a ha

/-- Concatenating absent or present lists is associative. -/
theorem joined_assoc (a b c : Option (List Val)) : joined (joined a b) c = joined a (joined b c) := by
  cases a <;> cases b <;> cases c <;> simp [joined]

/-- Two bags, each in its own heap, that a program cannot tell apart: equal scalars, equal lists, equal dependencies, equal
providers by package. -/
def SameBag (h : Heap) (a : Nat) (h' : Heap) (b : Nat) : Prop :=
  ∃ o o', h[a]? = some (.opts o) ∧ h'[b]? = some (.opts o') ∧ (∀ f, o.scalar f = o'.scalar f) ∧
    (∀ f, ∃ l, ListAt h (o.coll f) l ∧ ListAt h' (o'.coll f) l) ∧
    (∃ later l, DependsAt h o.dependsOn later l ∧ DependsAt h' o'.dependsOn later l) ∧
    ((o.providers = .none ∧ o'.providers = .none) ∨
      ∃ x y kvs, o.providers = .ref x ∧ o'.providers = .ref y ∧ h[x]? = some (.dict kvs) ∧ h'[y]? = some (.dict kvs))

theorem Sees.isProvider {pkg : Nat → Option String} {h : Heap} {v : Val} {s : Seen} (hv : Sees pkg h v s) :
    ∀ p ∈ s.providers, IsProvider pkg p := by
  cases hv with
  | none => intro p hp; cases hp
  | opts _ _ _ _ _ hi => exact hi

theorem append_isProvider {pkg : Nat → Option String} {xs ys : List Val} (hx : ∀ p ∈ xs, IsProvider pkg p)
    (hy : ∀ p ∈ ys, IsProvider pkg p) : ∀ p ∈ xs ++ ys, IsProvider pkg p := by
  intro p hp
  rcases List.mem_append.1 hp with hp | hp
  · exact hx p hp
  · exact hy p hp

/-- What is seen of the result of a merge. -/
theorem merge_sees {pkg : Nat → Option String} {h : Heap} {v w : Val} {s1 s2 : Seen} (hv : Sees pkg h v s1)
    (hw : Sees pkg h w s2) :
    ∃ r h' o s, merge pkg v w h = (.ok r, h') ∧ h'[r]? = some (.opts o) ∧ Le h h' ∧ Sees pkg h' (.ref r) s ∧
      s.scalar = (fun f => if s2.scalar f = .none then s1.scalar f else s2.scalar f) ∧
      s.coll = (fun f => joined (s1.coll f) (s2.coll f)) ∧ s.later = (s1.later || s2.later) ∧
      s.dependsOn = s1.dependsOn ++ s2.dependsOn ∧
      s.providers = (collapsed pkg [] (s1.providers ++ s2.providers)).map (·.2) := by
  obtain ⟨r, h', o, h1, h2, h3, h4, h5, h6, h7, h8, _⟩ := merge_run hv hw
  refine ⟨r, h', o, ⟨_, _, _, _, _⟩, h1, h3, h4, .opts h3 h5 h6 h7 ?_ (collapsed_isProvider
    (append_isProvider hv.isProvider hw.isProvider)), rfl, rfl, rfl, rfl, rfl⟩
  rcases h8 with ⟨h8, h9⟩ | ⟨_, a, ha, hd⟩
  · rw [h9, h8]
    exact .none
  · rw [ha]
    exact .dict hd

/-- What is seen of an argument does not change when something else is merged. -/
theorem Sees.after {pkg : Nat → Option String} {h : Heap} {u : Val} {s : Seen} (hu : Sees pkg h u s) (v w : Val) :
    Sees pkg (merge pkg v w h).2 u s := by
  cases hu with
  | none => exact .none
  | @opts a o s ha h1 h2 h3 h4 h5 =>
    have keep : ∀ (b : Nat) (c : Cell), h[b]? = some c → (merge pkg v w h).2[b]? = some c := by
      intro b c hb
      rw [merge_keeps_arguments pkg v w h b (List.getElem?_eq_some_iff.1 hb).1, hb]
    have L : Le h (merge pkg v w h).2 := fun b c _ hb => keep b c hb
    exact .opts (keep _ _ ha) h1 (fun f => (h2 f).mono L) (h3.mono L) (h4.mono L) h5

/-- **C32.** Merging is associative: `merge(merge(a, b), c)` and `merge(a, merge(b, c))` both succeed and give bags that
cannot be told apart. -/
theorem merge_assoc {pkg : Nat → Option String} {h : Heap} {u v w : Val} {s1 s2 s3 : Seen} (hu : Sees pkg h u s1)
    (hv : Sees pkg h v s2) (hw : Sees pkg h w s3) :
    ∃ r1 h1 r2 h2 r3 h3 r4 h4, merge pkg u v h = (.ok r1, h1) ∧ merge pkg (.ref r1) w h1 = (.ok r2, h2) ∧
      merge pkg v w h = (.ok r3, h3) ∧ merge pkg u (.ref r3) h3 = (.ok r4, h4) ∧ SameBag h2 r2 h4 r4 := by
  obtain ⟨r1, h1, o1, t1, e1, _, _, k1, a1, b1, c1, d1, p1⟩ := merge_sees hu hv
  have hw1 : Sees pkg h1 w s3 := by have := hw.after u v; rwa [e1] at this
  obtain ⟨r2, h2, o2, e2, _, g2, _, a2, b2, c2, d2, _⟩ := merge_run k1 hw1
  obtain ⟨r3, h3, o3, t3, e3, _, _, k3, a3, b3, c3, d3, p3⟩ := merge_sees hv hw
  have hu3 : Sees pkg h3 u s1 := by have := hu.after v w; rwa [e3] at this
  obtain ⟨r4, h4, o4, e4, _, g4, _, a4, b4, c4, d4, _⟩ := merge_run hu3 k3
  refine ⟨r1, h1, r2, h2, r3, h3, r4, h4, e1, e2, e3, e4, o2, o4, g2, g4, ?_, ?_, ?_, ?_⟩
  · intro f
    rw [a2, a4, a1, a3]
    by_cases x : s3.scalar f = .none
    · simp [x]
    · simp [x]
  · intro f
    refine ⟨_, b2 f, ?_⟩
    have := b4 f
    rw [b3] at this
    rw [b1, joined_assoc]
    exact this
  · refine ⟨_, _, c2, ?_⟩
    rw [c1, d1, Bool.or_assoc, List.append_assoc]
    rw [c3, d3] at c4
    exact c4
  · have q1 := append_isProvider hu.isProvider hv.isProvider
    have q3 := append_isProvider hv.isProvider hw.isProvider
    rw [p1] at d2
    rw [p3] at d4
    have E : collapsed pkg [] ((collapsed pkg [] (s1.providers ++ s2.providers)).map (·.2) ++ s3.providers) =
        collapsed pkg [] (s1.providers ++ (collapsed pkg [] (s2.providers ++ s3.providers)).map (·.2)) := by
      rw [collapsed_append, collapsed_collapsed q1, collapsed_append, collapsed_append, collapsed_collapsed q3,
        collapsed_append]
    have nil : ∀ {xs : List Val}, (∀ p ∈ xs, IsProvider pkg p) → ((collapsed pkg [] xs).map (·.2) = [] ↔ xs = []) := by
      intro xs hxs
      constructor
      · intro hh
        refine Classical.byContradiction fun hx => collapsed_ne_nil hxs hx ?_
        simpa using hh
      · intro hh; rw [hh]; rfl
    rw [List.append_eq_nil_iff, ne_eq, List.append_eq_nil_iff, nil q1] at d2
    rw [List.append_eq_nil_iff, ne_eq, List.append_eq_nil_iff, nil q3] at d4
    simp only [List.append_eq_nil_iff] at d2 d4
    rcases d2 with ⟨⟨⟨x1, x2⟩, x3⟩, y⟩ | ⟨x, a, ha, hd⟩
    · rcases d4 with ⟨_, z⟩ | ⟨z, _⟩
      · exact .inl ⟨y, z⟩
      · exact absurd ⟨x1, x2, x3⟩ z
    · rcases d4 with ⟨⟨z1, z2, z3⟩, _⟩ | ⟨_, b, hb, hd'⟩
      · exact absurd ⟨⟨z1, z2⟩, z3⟩ x
      · refine .inr ⟨a, b, _, ha, hb, hd, ?_⟩
        rw [E]
        exact hd'

/-! ## `opts1.merge(opts2)` -/

/-- **C32.** On a bag made by the constructor, `opts1.merge(opts2)` is the merge of the two. -/
theorem instance_merge_partial {pkg : Nat → Option String} {h : Heap} {a : Nat} {o : Opts} (ha : h[a]? = some (.opts o))
    (hm : o.mergeSelf = a) (w : Val) : instanceMerge pkg a w h = merge pkg (.ref a) w h := by
  rw [instanceMerge, bindH, loadOpts_ok ha, ← hm]

/-- The method of a merged bag is the method of its first argument: `opts1.merge(opts2).merge(opts3)` is
`merge(opts1, opts3)`, and what `opts2` said is lost. -/
theorem chained_instance_merge {pkg : Nat → Option String} {h : Heap} {a : Nat} {o : Opts} {w : Val} {s1 s2 : Seen}
    (ha : h[a]? = some (.opts o)) (hm : o.mergeSelf = a) (h1 : Sees pkg h (.ref a) s1) (h2 : Sees pkg h w s2) :
    ∃ r h', instanceMerge pkg a w h = (.ok r, h') ∧
      ∀ x, instanceMerge pkg r x h' = merge pkg (.ref a) x h' := by
  rw [instance_merge_partial ha hm]
  obtain ⟨r, h', o', e, _, g, _, _, _, _, _, hs, _⟩ := merge_run h1 h2
  refine ⟨r, h', e, fun x => ?_⟩
  rw [instanceMerge, bindH, loadOpts_ok g]
  dsimp only
  rw [hs a o rfl ha, hm]

/-- Three bags in one heap: the second protects, the third has a version. -/
def three : Heap := [.opts { mergeSelf := 0 }, .opts { protect := .bool true, mergeSelf := 1 },
  .opts { version := .str "1.0", mergeSelf := 2 }]

/-- A chain of method calls loses `protect`, which the chain of static calls keeps. -/
theorem chained_instance_merge_loses_partial : ∃ r h' r' h'' o,
    instanceMerge (fun _ => none) 0 (.ref 1) three = (.ok r, h') ∧
    instanceMerge (fun _ => none) r (.ref 2) h' = (.ok r', h'') ∧ h''[r']? = some (.opts o) ∧ o.protect = .none :=
  ⟨3, _, 8, _, _, rfl, rfl, rfl, rfl⟩

/-! ## What is not supported -/

/-- A tuple of providers is lost: the merged bag has an empty dict. -/
theorem tuple_providers_lost : ∃ r h' o a,
    merge (fun _ => some "aws") (.ref 0) .none [.opts { providers := .ref 1, mergeSelf := 0 }, .tuple [.obj 7]] =
      (.ok r, h') ∧ h'[r]? = some (.opts o) ∧ o.providers = .ref a ∧ h'[a]? = some (.dict []) :=
  ⟨3, _, _, 8, rfl, rfl, rfl, rfl⟩

/-! ## The hypotheses are met -/

/-- Objects 10 and 11 are providers for aws, 12 is one for gcp. -/
def samplePkg (n : Nat) : Option String := if n = 10 ∨ n = 11 then some "aws" else if n = 12 then some "gcp" else none

def sample : Heap := [
  .opts { protect := .bool true, providers := .ref 1, dependsOn := .obj 1, aliases := .ref 2, mergeSelf := 0 },
  .list [.obj 10, .obj 12], .list [.str "old"],
  .opts { version := .str "2", providers := .ref 4, dependsOn := .out (.ref 5), aliases := .ref 6, mergeSelf := 3 },
  .dict [("aws", .obj 11)], .tuple [.obj 2, .obj 3], .list [.str "older"]]

def seen1 : Seen := ⟨fun | .protect => .bool true | _ => .none, fun | .aliases => some [.str "old"] | _ => none, false,
  [.obj 1], [.obj 10, .obj 12]⟩
def seen2 : Seen := ⟨fun | .version => .str "2" | _ => .none, fun | .aliases => some [.str "older"] | _ => none, true,
  [.obj 2, .obj 3], [.obj 11]⟩

theorem sample_sees1 : Sees samplePkg sample (.ref 0) seen1 := by
  refine .opts rfl ?_ ?_ .one (.list rfl) ?_
  · intro f; cases f <;> rfl
  · intro f
    cases f with
    | aliases => exact .list rfl
    | _ => exact .none
  · intro p hp
    simp only [seen1, List.mem_cons, List.not_mem_nil, or_false] at hp
    rcases hp with rfl | rfl
    · exact ⟨10, "aws", rfl, rfl⟩
    · exact ⟨12, "gcp", rfl, rfl⟩

theorem sample_sees2 : Sees samplePkg sample (.ref 3) seen2 := by
  refine .opts rfl ?_ ?_ (.later (by simp) (.tuple rfl)) (.dict (kvs := [("aws", .obj 11)]) rfl) ?_
  · intro f; cases f <;> rfl
  · intro f
    cases f with
    | aliases => exact .list rfl
    | _ => exact .none
  · intro p hp
    simp only [seen2, List.mem_cons, List.not_mem_nil, or_false] at hp
    subst hp
    exact ⟨11, "aws", rfl, rfl⟩

example : ∃ r h' o a, merge samplePkg (.ref 0) (.ref 3) sample = (.ok r, h') ∧ h'[r]? = some (.opts o) ∧
    o.protect = .bool true ∧ o.version = .str "2" ∧ o.providers = .ref a ∧
    h'[a]? = some (.dict [("aws", .obj 11), ("gcp", .obj 12)]) := ⟨7, _, _, 15, rfl, rfl, rfl, rfl, rfl, by decide⟩
example := merge_contents sample_sees1 sample_sees2
example := merge_assoc sample_sees1 sample_sees2 sample_sees1
example := chained_instance_merge (a := 0) rfl rfl sample_sees1 sample_sees2

/-- **C32.** Lists that were given as tuples are joined, too; but a tuple and a list cannot be merged, `TypeError`. -/
theorem tuple_lists_merged {h : Heap} {a b : Nat} {xs ys : List Val} (hx : h[a]? = some (.tuple xs)) :
    (h[b]? = some (.tuple ys) → mergeLists (.ref a) (.ref b) h = (.ok (.ref h.length), h ++ [.tuple (xs ++ ys)])) ∧
      (h[b]? = some (.list ys) → mergeLists (.ref a) (.ref b) h = (.error .type, h) ∧
        mergeLists (.ref b) (.ref a) h = (.error .type, h)) := by
  constructor
  · intro hy
    simp [mergeLists, addLists, bindH, load, hx, hy, alloc, pureH]
  · intro hy
    simp [mergeLists, addLists, bindH, load, hx, hy, raise]

/-- Non-trivial instance: `ignore_changes=("a",)` merged with `("b",)` and with `["b"]`. -/
example : let h : Heap := [.tuple [.str "a"], .tuple [.str "b"], .list [.str "b"]]
    mergeLists (.ref 0) (.ref 1) h = (.ok (.ref 3), h ++ [.tuple [.str "a", .str "b"]]) ∧
      (mergeLists (.ref 0) (.ref 2) h).1 = .error .type := ⟨rfl, rfl⟩

end Pulumi.Options
