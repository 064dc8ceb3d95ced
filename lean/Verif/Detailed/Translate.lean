import Verif.Detailed.Theorems
/-!
# The whole of a detailed diff (C224)
-/
namespace Pulumi.Detailed
open Pulumi.Engine (EV Blob)
open Pulumi.Paths (Key Path Text Kind PropertyDiff)
open Pulumi.Props (VDiff)

variable {hash : Blob → Option String}

/-- What an entry of a step's detailed diff means: its path is read as one, or else is the name of a property; the old properties are the
inputs where the provider says so, and otherwise the outputs. -/
def EntryMeans (hash : Blob → Option String) (s : StepProps) (e : Text × PropertyDiff) (q : Path) (m : Mark) : Prop :=
  ∃ p, (Paths.parse e.1 = .ok p ∨ ((∃ err, Paths.parse e.1 = .error err) ∧ p = [.name e.1])) ∧
    Means hash e.2.kind (if e.2.inputDiff = true then s.oldInputs else s.oldOutputs) s.newInputs p q m

/-- The paths of the entries are apart from one another -/
def AllApart (es : List (Text × PropertyDiff)) : Prop := es.Pairwise (fun e f => Apart (elements e.1) (elements f.1))

/-- The entries are all of inputs, or all of outputs -/
def OneSide (es : List (Text × PropertyDiff)) : Prop := ∀ e ∈ es, ∀ f ∈ es, e.2.inputDiff = f.2.inputDiff

theorem elements_spec (e : Text × PropertyDiff) (p : Path) : elements e.1 = p ↔
    (Paths.parse e.1 = .ok p ∨ ((∃ err, Paths.parse e.1 = .error err) ∧ p = [.name e.1])) := by
  simp only [elements]
  cases Paths.parse e.1 <;> simp [eq_comm]

theorem entry_iff (s : StepProps) (e : Text × PropertyDiff) (q : Path) (m : Mark) :
    EntryMeans hash s e q m ↔ Means hash e.2.kind (s.olds e.2) s.newInputs (elements e.1) q m := by
  simp only [EntryMeans, ← elements_spec, StepProps.olds, exists_eq_left']

theorem from_only {s : StepProps} {q : Path} {m : Mark} : ∀ {es : List (Text × PropertyDiff)} {t t' : Tree},
    translateFrom hash s t es = some t' → Shows t' q m → Shows t q m ∨ ∃ e ∈ es, EntryMeans hash s e q m
  | [], _, _, h, hs => by cases h; exact .inl hs
  | (p, d) :: es, t, t', h, hs => by
    simp only [translateFrom] at h
    split at h
    · cases h
    · rename_i t1 h1
      rcases from_only h hs with h2 | ⟨e, he, hm⟩
      · rcases shows_only h1 h2 with h3 | h3
        · exact .inl h3
        · exact .inr ⟨(p, d), by simp, (entry_iff s (p, d) q m).2 h3⟩
      · exact .inr ⟨e, by simp [he], hm⟩

theorem from_kept {s : StepProps} {q : Path} {m : Mark} {e : Text × PropertyDiff} (hm : EntryMeans hash s e q m) :
    ∀ {es : List (Text × PropertyDiff)} {t t' : Tree}, translateFrom hash s t es = some t' →
      (∀ f ∈ es, Apart (elements f.1) (elements e.1) ∧ f.2.inputDiff = e.2.inputDiff) → Shows t q m → Shows t' q m
  | [], _, _, h, _, hs => by cases h; exact hs
  | (p, d) :: es, t, t', h, hf, hs => by
    simp only [translateFrom] at h
    split at h
    · cases h
    · rename_i t1 h1
      have hpd := hf (p, d) (by simp)
      refine from_kept hm h (fun f hf' => hf f (by simp [hf'])) ?_
      have hm' := (entry_iff s e q m).1 hm
      have : s.olds e.2 = s.olds d := by simp only [StepProps.olds, ← hpd.2]
      rw [this] at hm'
      exact shows_kept h1 hm' hpd.1 hs

theorem from_all {s : StepProps} {q : Path} {m : Mark} : ∀ {es : List (Text × PropertyDiff)} {t t' : Tree},
    translateFrom hash s t es = some t' → AllApart es → OneSide es → (∃ e ∈ es, EntryMeans hash s e q m) → Shows t' q m
  | [], _, _, _, _, _, h => by simp at h
  | (p, d) :: es, t, t', h, ha, ho, ⟨e, he, hm⟩ => by
    simp only [translateFrom] at h
    split at h
    · cases h
    · rename_i t1 h1
      simp only [AllApart, List.pairwise_cons] at ha
      rcases List.mem_cons.1 he with rfl | he
      · refine from_kept hm h (fun f hf => ⟨⟨(ha.1 f hf).2, (ha.1 f hf).1⟩, ho f (by simp [hf]) _ (by simp)⟩) ?_
        exact shows_meaning ((entry_iff s (p, d) q m).1 hm) h1
      · exact from_all h ha.2 (fun a ha b hb => ho a (by simp [ha]) b (by simp [hb])) ⟨e, he, hm⟩

theorem shows_object {t : Tree} {q : Path} {m : Mark} : Shows t.object q m ↔ Shows t q m ∧ ∃ n r, q = .name n :: r := by
  cases t with
  | mk a d u s =>
  constructor
  · intro h
    cases h with
    | @here _ k _ ha =>
      cases k with
      | name n => exact ⟨.here (by cases m <;> simpa [At, Tree.object, names] using ha), n, [], rfl⟩
      | idx i => cases m <;> simp [At, Tree.object, names] at ha
    | @deeper _ c k p _ hb hc =>
      cases k with
      | name n => exact ⟨.deeper (by simpa [below, Tree.object, names] using hb) hc, n, p, rfl⟩
      | idx i => simp [below, Tree.object, names] at hb
  · rintro ⟨h, n, r, rfl⟩
    cases h with
    | here ha => exact .here (by cases m <;> simpa [At, Tree.object, names] using ha)
    | deeper hb hc => exact .deeper (by simpa [below, Tree.object, names] using hb) hc

/-- **C224.** What is displayed all comes of the detailed diff: at every path, only what an entry means. -/
theorem displayed_from_entries {s : StepProps} {es : List (Text × PropertyDiff)} {t : Tree} (h : translate hash s es = some (some t))
    {q : Path} {m : Mark} (hs : Shows t q m) : ∃ e ∈ es, EntryMeans hash s e q m := by
  simp only [translate, Option.map_eq_some_iff] at h
  obtain ⟨t', h1, h2⟩ := h
  split at h2
  · cases h2
    rcases from_only h1 (shows_object.1 hs).1 with h | h
    · exact absurd h not_shows_empty
    · exact h
  · cases h2

/-- **C224.** Where the paths are apart, and all entries of inputs or all of outputs, what is displayed is exactly what the entries mean. -/
theorem displayed_iff {s : StepProps} {es : List (Text × PropertyDiff)} {t : Tree} (h : translate hash s es = some (some t))
    (ha : AllApart es) (ho : OneSide es) {n : Text} {r : Path} {m : Mark} :
    Shows t (.name n :: r) m ↔ ∃ e ∈ es, EntryMeans hash s e (.name n :: r) m := by
  refine ⟨displayed_from_entries h, fun he => ?_⟩
  simp only [translate, Option.map_eq_some_iff] at h
  obtain ⟨t', h1, h2⟩ := h
  split at h2
  · cases h2
    exact shows_object.2 ⟨from_all h1 ha ho he, n, r, rfl⟩
  · cases h2

/-- **C224.** Then no entry is lost: each whose path begins with the name of a property shows something, at its path or on the way to it. -/
theorem nothing_lost {s : StepProps} {es : List (Text × PropertyDiff)} {t : Tree} (h : translate hash s es = some (some t))
    (ha : AllApart es) (ho : OneSide es) {e : Text × PropertyDiff} (he : e ∈ es) {n : Text} {r : Path} (hp : elements e.1 = .name n :: r) :
    ∃ q m, q ≠ [] ∧ q <+: elements e.1 ∧ Shows t q m := by
  have hne : ∀ {es : List (Text × PropertyDiff)} {t t' : Tree}, translateFrom hash s t es = some t' → e ∈ es →
      ∃ t1 t2, addDiff hash e.2.kind (elements e.1) t1 (s.olds e.2) s.newInputs = some t2 := by
    intro es
    induction es with
    | nil => intro _ _ _ h; cases h
    | cons f fs ih =>
      intro t t' h hm
      obtain ⟨p, d⟩ := f
      simp only [translateFrom] at h
      split at h
      · cases h
      · rename_i t1 h1
        rcases List.mem_cons.1 hm with rfl | hm
        · exact ⟨_, _, h1⟩
        · exact ih h hm
  have h' := h
  simp only [translate, Option.map_eq_some_iff] at h'
  obtain ⟨t', h1, -⟩ := h'
  obtain ⟨a, b, hab⟩ := hne h1 he
  obtain ⟨q, m, hm, hq, hpre⟩ := has_meaning hab
  refine ⟨q, m, hq, hpre, ?_⟩
  obtain ⟨k, ks, rfl⟩ := List.exists_cons_of_ne_nil hq
  rw [hp, List.cons_prefix_cons] at hpre
  obtain ⟨rfl, -⟩ := hpre
  exact (displayed_iff h ha ho).2 ⟨e, he, (entry_iff s e _ m).2 hm⟩

theorem from_foldlM (s : StepProps) : ∀ (es : List (Text × PropertyDiff)) (t : Option Tree),
    t.bind (fun t => translateFrom hash s t es) =
      es.foldl (fun t e => t.bind fun t => addDiff hash e.2.kind (elements e.1) t (s.olds e.2) s.newInputs) t
  | [], t => by cases t <;> rfl
  | (p, d) :: es, t => by
    simp only [List.foldl_cons]
    rw [← from_foldlM s es]
    cases t with
    | none => rfl
    | some t =>
      simp only [Option.bind_some, translateFrom]
      cases addDiff hash d.kind (elements p) t (s.olds d) s.newInputs <;> rfl

theorem apart_of {es : List (Text × PropertyDiff)} (ha : AllApart es) {e f : Text × PropertyDiff} (he : e ∈ es) (hf : f ∈ es) (hef : e ≠ f) :
    Apart (elements e.1) (elements f.1) := by
  induction es with
  | nil => cases he
  | cons g gs ih =>
    simp only [AllApart, List.pairwise_cons] at ha
    rcases List.mem_cons.1 he with rfl | he'
    · rcases List.mem_cons.1 hf with rfl | hf'
      · exact absurd rfl hef
      · exact ha.1 f hf'
    · rcases List.mem_cons.1 hf with rfl | hf'
      · exact ⟨(ha.1 e he').2, (ha.1 e he').1⟩
      · exact ih ha.2 he' hf'

/-- **C224.** And it is the same whatever the order in which the entries are gone through. -/
theorem order_irrelevant {s : StepProps} {es es' : List (Text × PropertyDiff)} (hp : es.Perm es') (ha : AllApart es) (ho : OneSide es) :
    translate hash s es = translate hash s es' := by
  have h1 : translateFrom hash s .empty es = translateFrom hash s .empty es' := by
    have h2 := from_foldlM (hash := hash) s es (some .empty)
    have h3 := from_foldlM (hash := hash) s es' (some .empty)
    simp only [Option.bind_some] at h2 h3
    rw [h2, h3]
    refine hp.foldl_eq' ?_ _
    intro e he f hf z
    by_cases hef : e = f
    · subst hef; rfl
    · have hap := apart_of ha he hf hef
      have hs : s.olds e.2 = s.olds f.2 := by simp only [StepProps.olds, ho e he f hf]
      cases z with
      | none => rfl
      | some t =>
        simp only [Option.bind_some]
        rw [hs]
        exact (entries_commute (hash := hash) (kind := e.2.kind) (kind' := f.2.kind) _ _ t hap)
  have h4 : hasObject es = hasObject es' := by
    simp only [hasObject]
    rw [Bool.eq_iff_iff, List.any_eq_true, List.any_eq_true]
    constructor
    · rintro ⟨e, he, h⟩; exact ⟨e, hp.mem_iff.1 he, h⟩
    · rintro ⟨e, he, h⟩; exact ⟨e, hp.mem_iff.2 he, h⟩
  simp only [translate, h1, h4]

/-! ## The values entries are about -/

theorem member_lookup (n : String) : ∀ kvs : List (String × EV), Paths.member n.toList kvs = kvs.lookup n
  | [] => rfl
  | (k, v) :: kvs => by
    simp only [Paths.member, List.lookup_cons, String.toList_inj]
    by_cases h : k = n
    · subst h; simp
    · have h' : ¬ n = k := fun e => h e.symm
      simp [h, beq_eq_false_iff_ne.2 h', member_lookup n kvs]

/-- **C224.** The property of an object is the one of that name, and that of an array the element of that index, counted from 0; what is
secret, an output or not known yet stands for each of its properties; anything else has none. -/
theorem property_of (v w : EV) (k : Key) : getProperty k v = w ↔
    (∃ kvs n, v = .object kvs ∧ k = .name n ∧ kvs.lookup (String.ofList n) = some w) ∨
    (∃ xs i, v = .array xs ∧ k = .idx (Int.ofNat i) ∧ xs[i]? = some w) ∨
    ((∃ e, v = .secret e) ∨ (∃ e, v = .computed e) ∨ ∃ e a b c, v = .output e a b c) ∧ w = v ∨
    w = .null ∧ (∀ kvs n, v = .object kvs → k = .name n → kvs.lookup (String.ofList n) = none) ∧
      (∀ xs i, v = .array xs → k = .idx (Int.ofNat i) → xs[i]? = none) ∧
      ¬ ((∃ e, v = .secret e) ∨ (∃ e, v = .computed e) ∨ ∃ e a b c, v = .output e a b c) := by
  have hml : ∀ (n : Text) (kvs : List (String × EV)), Paths.member n kvs = kvs.lookup (String.ofList n) := by
    intro n kvs
    have := member_lookup (String.ofList n) kvs
    simpa using this
  cases v with
  | object kvs =>
    cases k with
    | name n =>
      simp only [getProperty, hml]
      cases h : kvs.lookup (String.ofList n) with
      | none =>
        simp only [Option.getD_none]
        constructor
        · rintro rfl; right; right; right
          refine ⟨rfl, ?_, by simp, by simp⟩
          intro kvs' n' hv hk; cases hv; cases hk; exact h
        · rintro (⟨kvs', n', hv, hk, hw⟩ | ⟨_, _, hv, _⟩ | ⟨hv, _⟩ | ⟨rfl, _⟩)
          · cases hv; cases hk; rw [h] at hw; cases hw
          · cases hv
          · simp at hv
          · rfl
      | some x =>
        simp only [Option.getD_some]
        constructor
        · rintro rfl; left; exact ⟨kvs, n, rfl, rfl, h⟩
        · rintro (⟨kvs', n', hv, hk, hw⟩ | ⟨_, _, hv, _⟩ | ⟨hv, _⟩ | ⟨rfl, hn, _⟩)
          · cases hv; cases hk; rw [h] at hw; cases hw; rfl
          · cases hv
          · simp at hv
          · have := hn kvs n rfl rfl; rw [h] at this; cases this
    | idx i => simp [getProperty, eq_comm]
  | array xs =>
    cases k with
    | name n => simp [getProperty, eq_comm]
    | idx i =>
      cases i with
      | ofNat i =>
        simp only [getProperty, Int.ofNat_eq_natCast, Int.toNat_natCast, Int.natCast_nonneg, if_true]
        cases h : xs[i]? with
        | none =>
          simp only [Option.getD_none]
          constructor
          · rintro rfl; right; right; right
            refine ⟨rfl, by simp, ?_, by simp⟩
            intro xs' j hx hj; cases hx; have hj := Int.ofNat_inj.1 (Key.idx.inj hj); subst hj; exact h
          · rintro (⟨_, _, hv, _⟩ | ⟨xs', j, hx, hj, hw⟩ | ⟨hv, _⟩ | ⟨rfl, _⟩)
            · cases hv
            · cases hx; have hj := Int.ofNat_inj.1 (Key.idx.inj hj); subst hj; rw [h] at hw; cases hw
            · simp at hv
            · rfl
        | some x =>
          simp only [Option.getD_some]
          constructor
          · rintro rfl; right; left; exact ⟨xs, i, rfl, rfl, h⟩
          · rintro (⟨_, _, hv, _⟩ | ⟨xs', j, hx, hj, hw⟩ | ⟨hv, _⟩ | ⟨rfl, _, hn, _⟩)
            · cases hv
            · cases hx; have hj := Int.ofNat_inj.1 (Key.idx.inj hj); subst hj; rw [h] at hw; cases hw; rfl
            · simp at hv
            · have := hn xs i rfl rfl; rw [h] at this; cases this
      | negSucc i =>
        have : ¬ (0 : Int) ≤ Int.negSucc i := by simp
        simp only [getProperty, this, if_false]
        constructor
        · rintro rfl; right; right; right
          refine ⟨rfl, by simp, ?_, by simp⟩
          intro xs' j hx hj; cases hj
        · rintro (⟨_, _, hv, _⟩ | ⟨xs', j, hx, hj, hw⟩ | ⟨hv, _⟩ | ⟨rfl, _⟩)
          · cases hv
          · cases hj
          · simp at hv
          · rfl
  | _ => cases k <;> simp [getProperty, eq_comm]

/-! ## When there is nothing to display -/

/-- the value at a path -/
def valueAt : Path → EV → EV
  | [], v => v
  | k :: ks, v => valueAt ks (getProperty k v)

/-- An entry fails only where its path is empty, or where comparing the old value at the path with the new one does. -/
theorem entry_fails {kind : Kind} : ∀ {p : Path} {t : Tree} {o n : EV}, addDiff hash kind p t o n = none →
    p = [] ∨ Props.diff hash (fun _ => false) (valueAt p o) (valueAt p n) = none
  | [], _, _, _, _ => .inl rfl
  | k :: ks, t, o, n, h => by
    right
    rw [addDiff_cons, Option.map_eq_none_iff] at h
    cases ks with
    | nil =>
      cases kind
      case update | updateReplace =>
        simp only [slotOp, Option.map_eq_none_iff] at h
        exact h
      all_goals simp [slotOp] at h
    | cons l ls =>
      simp only [slotOp] at h
      split at h
      · cases h
      · split at h
        · cases h
        · rw [Option.map_eq_none_iff] at h
          rcases entry_fails h with h | h
          · cases h
          · exact h

/-- **C224.** A detailed diff is translated unless a path is empty or a comparison of two values fails. -/
theorem translated {s : StepProps} {es : List (Text × PropertyDiff)} (hp : ∀ e ∈ es, elements e.1 ≠ [])
    (hd : ∀ e ∈ es, Props.diff hash (fun _ => false) (valueAt (elements e.1) (s.olds e.2)) (valueAt (elements e.1) s.newInputs) ≠ none) : ∃ r, translate hash s es = some r := by
  have : ∀ t, ∃ t', translateFrom hash s t es = some t' := by
    induction es with
    | nil => intro t; exact ⟨t, rfl⟩
    | cons e es ih =>
      intro t
      obtain ⟨p, d⟩ := e
      simp only [translateFrom]
      cases h : addDiff hash d.kind (elements p) t (s.olds d) s.newInputs with
      | none =>
        rcases entry_fails h with h | h
        · exact absurd h (hp (p, d) (by simp))
        · exact absurd h (hd (p, d) (by simp))
      | some t' => exact ih (fun e he => hp e (by simp [he])) (fun e he => hd e (by simp [he])) t'
  obtain ⟨t', h⟩ := this .empty
  exact ⟨if hasObject es then some t'.object else none, by simp only [translate, h, Option.map_some]⟩

example (hash : Blob → Option String) : ∃ r, translate hash ⟨.object [("a", .num 1)], .null, .object [("a", .num 2)]⟩
    [("a".toList, ⟨.update, false⟩)] = some r :=
  translated (by intro e he; simp only [List.mem_singleton] at he; subst he; decide)
    (by intro e he; simp only [List.mem_singleton] at he; subst he; intro h; cases h)

/-- **C224, what is wrong.** A provider that answers with an empty path, or one of nothing but dots, ends the program that displays the
update. -/
theorem empty_path_ends_the_program (s : StepProps) {p : Text} (hp : p.all (fun c => decide (c = '.')) = true) (d : PropertyDiff) (es : List (Text × PropertyDiff)) :
    translate hash s ((p, d) :: es) = none := by
  have h1 : ∀ (p : Text) (fuel : Nat), p.all (fun c => decide (c = '.')) = true → Paths.parseLoop fuel p = .ok [] := by
    intro p
    induction p with
    | nil => intro fuel _; cases fuel <;> rfl
    | cons c cs ih =>
      intro fuel h
      simp only [List.all_cons, Bool.and_eq_true, decide_eq_true_eq] at h
      cases fuel with
      | zero => rfl
      | succ f => simp only [Paths.parseLoop, h.1, if_true]; exact ih f (by simpa using h.2)
  have h2 : elements p = [] := by simp only [elements, Paths.parse, h1 p _ hp]
  simp [translate, translateFrom, h2, addDiff]

/-- **C224, what is wrong.** Where no path begins with the name of a property nothing is displayed of the diff, whatever it says. -/
theorem index_paths_not_shown (s : StepProps) (es : List (Text × PropertyDiff)) (h : ∀ e ∈ es, ∀ n r, elements e.1 ≠ .name n :: r) :
    ∀ r, translate hash s es = some r → r = none := by
  intro r hr
  simp only [translate, Option.map_eq_some_iff] at hr
  obtain ⟨t, -, rfl⟩ := hr
  have : hasObject es = false := by
    simp only [hasObject, List.any_eq_false]
    intro e he
    split
    · rename_i n r heq; exact absurd heq (h e he n r)
    · simp
  rw [this]; rfl

/-- the entries `a` and `a.b`, both updates -/
def overlap : List (Text × PropertyDiff) := [("a".toList, ⟨.update, false⟩), ("a.b".toList, ⟨.update, false⟩)]

/-- an object `a` in which the property `b` has this value -/
def props (v : EV) : EV := .object [("a", .object [("b", v)])]

/-- **C224, what is wrong.** With one path on the way to another, what is displayed depends on the order in which a Go map is gone
through: the entry `a.b` is shown or not. -/
theorem overlap_depends_on_order (hash : Blob → Option String) : ∃ s t t', translate hash s overlap = some (some t) ∧
    translate hash s overlap.reverse = some (some t') ∧
    (∃ m, Shows t [.name ['a'], .name ['b']] m) ∧ ¬ ∃ m, Shows t' [.name ['a'], .name ['b']] m := by
  refine ⟨⟨props (.num 1), .null, props (.num 2)⟩, _, _, rfl, rfl, ⟨.updated (.leaf (.num 1) (.num 2)), ?_⟩, ?_⟩
  · exact .deeper rfl (.here rfl)
  · rintro ⟨m, h⟩
    cases h with
    | deeper hb _ => exact absurd hb (by intro h; cases h)

/-- an entry of the inputs and one of the outputs, below a property the new inputs do not have -/
def mixed : List (Text × PropertyDiff) := [("a.b".toList, ⟨.delete, true⟩), ("a.c".toList, ⟨.delete, false⟩)]

/-- **C224, what is wrong.** So it does, though the paths are apart, where some entries are of the inputs and some of the outputs: the value
shown as deleted is the old input or the old output. -/
theorem mixed_depends_on_order (hash : Blob → Option String) : AllApart mixed ∧ ∃ s t t', translate hash s mixed = some (some t) ∧
    translate hash s mixed.reverse = some (some t') ∧
    Shows t [.name ['a']] (.deleted (.str "out")) ∧ Shows t' [.name ['a']] (.deleted (.str "in")) ∧
    ¬ Shows t' [.name ['a']] (.deleted (.str "out")) := by
  refine ⟨?_, ⟨.object [("a", .str "out")], .object [("a", .str "in")], .object []⟩, _, _, rfl, rfl, .here rfl, .here rfl, ?_⟩
  · have h1 : elements "a.b".toList = [.name ['a'], .name ['b']] := rfl
    have h2 : elements "a.c".toList = [.name ['a'], .name ['c']] := rfl
    simp only [AllApart, mixed, List.pairwise_cons, List.mem_singleton, forall_eq, h1, h2]
    refine ⟨⟨?_, ?_⟩, by simp⟩ <;> simp [List.cons_prefix_cons]
  · intro h
    cases h with
    | here ha =>
      have ha : (some (EV.str "in")) = some (EV.str "out") := ha
      simp at ha
    | deeper hb hc => cases hc

/-- two entries that meet what the theorems above ask, and what is displayed of them -/
example (hash : Blob → Option String) : AllApart [("a.b".toList, ⟨.update, false⟩), ("c[0]".toList, ⟨.addReplace, false⟩)] ∧
    OneSide [("a.b".toList, ⟨.update, false⟩), ("c[0]".toList, ⟨.addReplace, false⟩)] ∧
    ∃ t, translate hash ⟨props (.num 1), .null, .object [("a", .object [("b", .num 2)]), ("c", .array [.num 7])]⟩
      [("a.b".toList, ⟨.update, false⟩), ("c[0]".toList, ⟨.addReplace, false⟩)] = some (some t) ∧
      Shows t [.name ['a'], .name ['b']] (.updated (.leaf (.num 1) (.num 2))) ∧ Shows t [.name ['c']] (.added (.array [.num 7])) := by
  have h1 : elements "a.b".toList = [.name ['a'], .name ['b']] := rfl
  have h2 : elements "c[0]".toList = [.name ['c'], .idx 0] := rfl
  refine ⟨?_, ?_, _, rfl, .deeper rfl (.here rfl), .here rfl⟩
  · simp only [AllApart, List.pairwise_cons, List.mem_singleton, forall_eq, h1, h2]
    refine ⟨⟨?_, ?_⟩, by simp⟩ <;> simp [List.cons_prefix_cons]
  · intro e he f hf
    simp only [List.mem_cons, List.not_mem_nil, or_false] at he hf
    rcases he with rfl | rfl <;> rcases hf with rfl | rfl <;> rfl

example : ∀ e ∈ [("[0]".toList, (⟨.update, false⟩ : PropertyDiff))], ∀ n r, elements e.1 ≠ .name n :: r := by
  intro e he n r
  simp only [List.mem_singleton] at he
  subst he
  have : elements "[0]".toList = [.idx 0] := rfl
  rw [this]; simp

end Pulumi.Detailed
