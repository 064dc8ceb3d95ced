import Verif.Types.Use

/-!
# Input types, output types and resource classes: the properties

Every theorem is about any list of properties (`Good`), any base classes that have nothing to do with them (`Neutral`),
classes that are subclasses of `dict` and classes that are not.
-/

namespace Pulumi.Types

open Pulumi.Wire (setKey)

variable {V : Type}

/-! ## Examples -/

/-- Two properties, one with another name in Pulumi, the second optional. -/
def exFields : List (Field Nat) :=
  [{ py := "first_arg", pulumi := "firstArg", ty := outputOf .str },
   { py := "second", pulumi := "second", ty := .cls "float" false, dflt := .given .none, plain := true }]

theorem exFields_good : Good exFields where
  py := by decide
  pulumi := by decide
  named := by
    intro f hf
    simp only [exFields, List.mem_cons, List.not_mem_nil, or_false] at hf
    rcases hf with rfl | rfl <;> exact ⟨by decide, by decide⟩
  plain := by
    intro f hf
    simp only [exFields, List.mem_cons, List.not_mem_nil, or_false] at hf
    rcases hf with rfl | rfl
    · intro e; cases e
    · intro _; rfl
  order := by
    refine List.Pairwise.cons (fun f _ e => by cases e) (List.Pairwise.cons (fun f hf => by cases hf) .nil)

/-- A base class with a method. -/
def exBase : ClassDict Nat := { attrs := [("describe", .value (.object "describe"))] }

theorem exBase_neutral : ∀ b ∈ [exBase], Neutral exFields b := by
  intro b hb
  simp only [List.mem_cons, List.not_mem_nil, or_false] at hb
  subst hb
  refine ⟨?_, rfl, rfl, rfl, rfl⟩
  intro f hf
  simp only [exFields, List.mem_cons, List.not_mem_nil, or_false] at hf
  rcases hf with rfl | rfl <;> rfl

/-! ## C111: constructing an input type -/

theorem apart_py {fs : List (Field V)} (h : Good fs) : Apart fs (fun f => f.py) := by
  intro f hf g hg e
  have := mem_find h hf
  rw [show f.py = g.py from e, mem_find h hg] at this
  exact (Option.some.inj this).symm

/-- An input type, declared either way, is called with keyword arguments: exactly those of its properties, of which those
with a default may be left out; anything else raises `TypeError`. Every property then has its argument or its default, and
what is sent to the engine are exactly the properties that are not `None`, under their Pulumi names. -/
theorem input_type_constructed (form : Form) {fs : List (Field V)} (h : Good fs) {bases : List (ClassDict V)}
    (hb : ∀ b ∈ bases, Neutral fs b) (tr : Option (String → String)) (isDict : Bool) :
    ∃ c, inputType (declare form fs true tr bases isDict) = .ok c ∧ ∀ kwargs,
      (Acceptable fs kwargs → ∃ i d, c.construct kwargs = .ok i ∧ (∀ f ∈ fs, c.read i f.py = .ok (argOf kwargs f)) ∧
        c.toDict i = .ok d ∧ Sent d fs (argOf kwargs)) ∧
      (¬ Acceptable fs kwargs → c.construct kwargs = .error .typeError) := by
  obtain ⟨c, e, _, r⟩ := realises_input h hb form isDict tr
  refine ⟨c, e, fun kwargs => ⟨fun ha => ?_, r.construct_error⟩⟩
  have hr := fun f (hf : f ∈ fs) => r.read_filled h (apart_py h) (argOf kwargs) hf
  obtain ⟨d, hd, hs⟩ := r.toDict h hr
  exact ⟨_, d, r.construct h ha, hr, hd, hs⟩

example : ∃ c, inputType (declare .short exFields true none [exBase] false) = .ok c ∧
    (c.construct [("first_arg", .val 3)]).isOk = true ∧ c.construct [("second", .val 3)] = .error .typeError ∧
    c.construct [("first_arg", .val 3), ("third", .val 4)] = .error .typeError :=
  ⟨_, rfl, rfl, rfl, rfl⟩

example : ∃ c i, inputType (declare .short exFields true none [exBase] true) = .ok c ∧
    c.construct [("second", .val 4), ("first_arg", .val 3)] = .ok i ∧
    c.toDict i = .ok [("second", .val 4), ("firstArg", .val 3)] := ⟨_, _, rfl, rfl, rfl⟩

/-! ## C112: assigning to the properties of an input type -/

theorem lastAssigned_cons (n m : String) (v : Val V) (ops : List (String × Val V)) : lastAssigned n ((m, v) :: ops) =
    match lastAssigned n ops with
    | some w => some w
    | none => if m = n then some v else none := rfl

theorem assignAll_input {c : Class V} {fs : List (Field V)} (r : Realises c fs true (fun f => f.py)) (h : Good fs) :
    ∀ (ops : List (String × Val V)) (i : Inst V), (∀ a ∈ ops, ∃ f ∈ fs, f.py = a.1) →
      ∃ j, c.assignAll i ops = .ok j ∧ ∀ f ∈ fs, c.read j f.py =
        match lastAssigned f.py ops with
        | some v => .ok v
        | none => c.read i f.py := by
  intro ops
  induction ops with
  | nil => intro i _; exact ⟨i, rfl, fun f _ => rfl⟩
  | cons a ops ih =>
    obtain ⟨n, v⟩ := a
    intro i hops
    obtain ⟨g, hg, e⟩ := hops (n, v) (List.mem_cons_self ..)
    simp only at e
    subst e
    obtain ⟨j, hj, hr⟩ := ih (c.put i g.py v) fun a ha => hops a (List.mem_cons_of_mem _ ha)
    refine ⟨j, ?_, ?_⟩
    · unfold Class.assignAll
      rw [r.assign_input h hg]
      exact hj
    · intro f hf
      rw [hr f hf, lastAssigned_cons]
      cases hl : lastAssigned f.py ops with
      | some w => rfl
      | none =>
        simp only
        rw [r.read h hf, store_put]
        by_cases e : g.py = f.py
        · rw [if_pos e.symm, if_pos e]
          rfl
        · rw [if_neg (fun e' => e e'.symm), if_neg e]
          simp only
          rw [r.read h hf]

/-- After any sequence of assignments to its properties, each property of an input type reads as what was last assigned to
it, or as before if nothing was, and what is sent are the properties that are then not `None`. -/
theorem assigned_properties (form : Form) {fs : List (Field V)} (h : Good fs) {bases : List (ClassDict V)}
    (hb : ∀ b ∈ bases, Neutral fs b) (tr : Option (String → String)) (isDict : Bool) :
    ∃ c, inputType (declare form fs true tr bases isDict) = .ok c ∧
      ∀ (i : Inst V) (before : Field V → Val V) (ops : List (String × Val V)),
        (∀ f ∈ fs, c.read i f.py = .ok (before f)) → (∀ a ∈ ops, ∃ f ∈ fs, f.py = a.1) →
        ∃ j d, c.assignAll i ops = .ok j ∧
          (∀ f ∈ fs, c.read j f.py = .ok ((lastAssigned f.py ops).getD (before f))) ∧
          c.toDict j = .ok d ∧ Sent d fs (fun f => (lastAssigned f.py ops).getD (before f)) := by
  obtain ⟨c, e, _, r⟩ := realises_input h hb form isDict tr
  refine ⟨c, e, fun i before ops hbefore hops => ?_⟩
  obtain ⟨j, hj, hr⟩ := assignAll_input r h ops i hops
  have hr' : ∀ f ∈ fs, c.read j f.py = .ok ((lastAssigned f.py ops).getD (before f)) := by
    intro f hf
    rw [hr f hf]
    cases lastAssigned f.py ops with
    | some v => rfl
    | none => exact hbefore f hf
  obtain ⟨d, hd, hs⟩ := r.toDict h hr'
  exact ⟨j, d, hj, hr', hd, hs⟩

example : ∃ c i j, inputType (declare .verbose exFields true none [exBase] false) = .ok c ∧
    c.construct [("first_arg", .val 3)] = .ok i ∧
    c.assignAll i [("second", .val 5), ("first_arg", .val 6), ("second", .val 7)] = .ok j ∧
    c.toDict j = .ok [("firstArg", .val 6), ("second", .val 7)] := ⟨_, _, _, rfl, rfl, rfl, rfl⟩

/-- Every instance reads as something, so that the hypothesis of `assigned_properties` holds of all of them. -/
theorem properties_always_read (form : Form) {fs : List (Field V)} (h : Good fs) {bases : List (ClassDict V)}
    (hb : ∀ b ∈ bases, Neutral fs b) (tr : Option (String → String)) (isDict : Bool) :
    ∃ c, inputType (declare form fs true tr bases isDict) = .ok c ∧
      ∀ i, ∃ before : Field V → Val V, ∀ f ∈ fs, c.read i f.py = .ok (before f) := by
  obtain ⟨c, e, _, r⟩ := realises_input h hb form isDict tr
  exact ⟨c, e, fun i => ⟨_, fun f hf => r.read h hf i⟩⟩

/-- A misspelt assignment is silently accepted and changes nothing that is read or sent. -/
theorem misspelt_assignment_ignored (form : Form) {fs : List (Field V)} (h : Good fs) {bases : List (ClassDict V)}
    (hb : ∀ b ∈ bases, Neutral fs b) (tr : Option (String → String)) (isDict : Bool) (name : String)
    (hn : ∀ f ∈ fs, f.py ≠ name) :
    ∃ c, inputType (declare form fs true tr bases isDict) = .ok c ∧ (c.findAttr name = none →
      ∀ i v, ∃ j, c.assign i name v = .ok j ∧ (∀ f ∈ fs, c.read j f.py = c.read i f.py) ∧
        ∃ d d', c.toDict i = .ok d ∧ c.toDict j = .ok d' ∧ ∀ k, d'.lookup k = d.lookup k) := by
  obtain ⟨c, e, _, r⟩ := realises_input h hb form isDict tr
  refine ⟨c, e, fun hname i v => ?_⟩
  have ha : c.assign i name v = .ok { i with fields := setKey i.fields name v } := by
    unfold Class.assign
    rw [hname]
  have hr : ∀ f ∈ fs, c.read { i with fields := setKey i.fields name v } f.py = c.read i f.py := by
    intro f hf
    rw [r.read h hf, r.read h hf]
    unfold Class.store
    cases c.isDict with
    | true => rfl
    | false =>
      simp only [Bool.false_eq_true, if_false]
      rw [lookup_setKey, if_neg (hn f hf)]
  refine ⟨_, ha, hr, ?_⟩
  obtain ⟨d, hd, hs⟩ := r.toDict h (fun f hf => r.read h hf i)
  obtain ⟨d', hd', hs'⟩ := r.toDict h (fun f hf => (hr f hf).trans (r.read h hf i))
  refine ⟨d, d', hd, hd', fun k => ?_⟩
  apply Option.ext
  intro w
  rw [hs k w, hs' k w]

example : ∃ c i j, inputType (declare .short exFields true none [exBase] false) = .ok c ∧ c.findAttr "secnd" = none ∧
    c.construct [("first_arg", .val 3)] = .ok i ∧ c.assign i "secnd" (.val 9) = .ok j ∧
    c.toDict j = .ok [("firstArg", .val 3)] := ⟨_, _, _, rfl, rfl, rfl, rfl, rfl⟩

/-! ## C113: the two ways to declare a class -/

theorem translate_form (form : Form) (fs : List (Field V)) (input : Bool) (tr : Option (String → String))
    (bases : List (ClassDict V)) (isDict : Bool) :
    (declare form fs input tr bases isDict).translate = tr.or (bases.findSome? (·.translate)) := by
  unfold Class.translate Class.mro
  rw [List.findSome?_cons]
  cases form <;> cases tr <;> rfl

theorem names_of {c : Class V} {fs : List (Field V)} {input : Bool} {key : Field V → String} (r : Realises c fs input key)
    (n : String) : c.pyToPulumi.lookup n = (fs.find? fun f => f.py == n).map (·.pulumi) := by
  unfold Class.pyToPulumi dictOf
  rw [List.foldl_map, lookup_foldl_setKey _ (fun x : String × String × PyProp V => x.1) (fun x => x.2.1) _ _ r.nodup]
  cases hf : fs.find? fun f => f.py == n with
  | some f =>
    have hfm := List.mem_of_find?_eq_some hf
    have hfn : f.py = n := by simpa using List.find?_some hf
    have : c.pyProperties.find? (fun x => x.1 == n) = some (f.py, f.pulumi, theProp input f) := by
      rw [← hfn]
      exact find_of_mem (key := fun x : String × String × PyProp V => x.1) r.nodup ((r.props _).2 ⟨f, hfm, rfl⟩)
    rw [this]
    rfl
  | none =>
    rw [find_none_of (key := fun x : String × String × PyProp V => x.1)]
    · rfl
    · intro x hx e
      obtain ⟨f, hfm, rfl⟩ := (r.props x).1 hx
      exact List.find?_eq_none.1 hf f hfm (by simpa using e)

/-- An input type behaves the same whichever way it is declared: calls, reads, assignments, what is sent and the names that
options are translated with. -/
theorem input_forms_agree {fs : List (Field V)} (h : Good fs) {bases : List (ClassDict V)} (hb : ∀ b ∈ bases, Neutral fs b)
    (tr : Option (String → String)) (isDict : Bool) :
    ∃ c c', inputType (declare .short fs true tr bases isDict) = .ok c ∧
      inputType (declare .verbose fs true tr bases isDict) = .ok c' ∧
      (∀ kwargs, c.construct kwargs = c'.construct kwargs) ∧
      (∀ i, ∀ f ∈ fs, c.read i f.py = c'.read i f.py ∧ ∀ v, c.assign i f.py v = c'.assign i f.py v) ∧
      (∀ i, ∃ d d', c.toDict i = .ok d ∧ c'.toDict i = .ok d' ∧ ∀ k, d.lookup k = d'.lookup k) ∧
      (∀ names, c.inputNames names = c'.inputNames names) := by
  obtain ⟨c, e, hd, r⟩ := realises_input h hb .short isDict tr
  obtain ⟨c', e', hd', r'⟩ := realises_input h hb .verbose isDict tr
  have hread : ∀ i, ∀ f ∈ fs, c.read i f.py = c'.read i f.py := by
    intro i f hf
    rw [r.read h hf, r'.read h hf]
    unfold Class.store
    rw [hd, hd']
  refine ⟨c, c', e, e', ?_, ?_, ?_, ?_⟩
  · intro kwargs
    by_cases ha : Acceptable fs kwargs
    · rw [r.construct h ha, r'.construct h ha, hd, hd']
    · rw [r.construct_error ha, r'.construct_error ha]
  · intro i f hf
    refine ⟨hread i f hf, fun v => ?_⟩
    rw [r.assign_input h hf, r'.assign_input h hf]
    unfold Class.put
    rw [hd, hd']
  · intro i
    obtain ⟨d, h1, hs⟩ := r.toDict h (fun f hf => r.read h hf i)
    obtain ⟨d', h1', hs'⟩ := r'.toDict h (fun f hf => (hread i f hf).symm.trans (r.read h hf i))
    refine ⟨d, d', h1, h1', fun k => ?_⟩
    apply Option.ext
    intro w
    rw [hs k w, hs' k w]
  · intro names
    unfold Class.inputNames
    congr 1
    funext n
    unfold nameOr
    rw [names_of r, names_of r']

/-- So does an output type. -/
theorem output_forms_agree {fs : List (Field V)} (h : Good fs) {bases : List (ClassDict V)} (hb : ∀ b ∈ bases, Neutral fs b)
    (tr : Option (String → String)) (isDict : Bool) :
    ∃ c c', outputType (declare .short fs false tr bases isDict) = .ok c ∧
      outputType (declare .verbose fs false tr bases isDict) = .ok c' ∧
      (∀ kwargs, c.construct kwargs = c'.construct kwargs) ∧ (∀ output, c.fromDict output = c'.fromDict output) ∧
      (∀ i, ∀ f ∈ fs, c.read i f.py = c'.read i f.py ∧ ∀ v, c.assign i f.py v = c'.assign i f.py v) := by
  obtain ⟨c, e, hd, r⟩ := realises_output h hb .short isDict tr
  obtain ⟨c', e', hd', r'⟩ := realises_output h hb .verbose isDict tr
  rw [translate_form] at r r'
  refine ⟨c, c', e, e', ?_, ?_, ?_⟩
  · intro kwargs
    by_cases ha : Acceptable fs kwargs
    · rw [r.construct h ha, r'.construct h ha, hd, hd']
    · rw [r.construct_error ha, r'.construct_error ha]
  · intro output
    rw [r.fromDict h, r'.fromDict h, hd, hd']
  · intro i f hf
    refine ⟨?_, fun v => ?_⟩
    · rw [r.read h hf, r'.read h hf]
      unfold Class.store
      rw [hd, hd']
    · rw [r.assign_output hf, r'.assign_output hf]

example : ∃ c c', outputType (declare .short exFields false (some fun s => "_" ++ s) [exBase] true) = .ok c ∧
    outputType (declare .verbose exFields false (some fun s => "_" ++ s) [exBase] true) = .ok c' ∧
    c.table = c'.table ∧ c.table = some [("first_arg", "firstArg")] :=
  ⟨_, _, rfl, rfl, rfl, rfl⟩

/-! ## C114: output types -/

/-- The key that an output type holds a property under: its Python name, or the Pulumi name translated by the class. -/
def keyOf (translate : Option (String → String)) (f : Field V) : String :=
  match translate with
  | none => f.py
  | some g => g f.pulumi

/-- An output type that is made of what the engine returned: each property is what the engine returned under its Pulumi
name, `None` if nothing; it cannot be assigned to; and if the class is a dict, the same values are its items, under the
translated names. -/
theorem output_type_received (form : Form) {fs : List (Field V)} (h : Good fs) {bases : List (ClassDict V)}
    (hb : ∀ b ∈ bases, Neutral fs b) (tr : Option (String → String)) (isDict : Bool)
    (hk : ∀ f ∈ fs, ∀ g ∈ fs, keyOf (tr.or (bases.findSome? (·.translate))) f =
      keyOf (tr.or (bases.findSome? (·.translate))) g → f = g) :
    ∃ c, outputType (declare form fs false tr bases isDict) = .ok c ∧ ∀ output : Store V, ∃ i, c.fromDict output = .ok i ∧
      (∀ f ∈ fs, c.read i f.py = .ok ((output.lookup f.pulumi).getD .none)) ∧
      (∀ f ∈ fs, ∀ v, c.assign i f.py v = .error .attributeError) ∧
      (isDict = true → ∀ f ∈ fs, (i.items.lookup (keyOf (tr.or (bases.findSome? (·.translate))) f)).getD .none =
        (output.lookup f.pulumi).getD .none) ∧
      (isDict = true → ∀ k, (∀ f ∈ fs, keyOf (tr.or (bases.findSome? (·.translate))) f ≠ k) → i.items.lookup k = none) := by
  obtain ⟨c, e, hd, r⟩ := realises_output h hb form isDict tr
  rw [translate_form] at r
  have hkey : slot (V := V) false (tr.or (bases.findSome? (·.translate))) = keyOf (tr.or (bases.findSome? (·.translate))) := by
    funext f
    cases tr.or (bases.findSome? (·.translate)) <;> rfl
  rw [hkey] at r
  refine ⟨c, e, fun output => ⟨_, r.fromDict h output, fun f hf => r.read_filled h hk _ hf, fun f hf v => r.assign_output hf _ v,
    ?_, ?_⟩⟩
  · intro hi f hf
    have h1 := r.read_filled h hk (fun f => (output.lookup f.pulumi).getD .none) hf
    rw [r.read h hf] at h1
    unfold Class.store at h1
    rw [hd, hi] at h1
    rw [hd, hi]
    exact Except.ok.inj h1
  · intro hi k hne
    have h1 := store_filled_none (key := keyOf (tr.or (bases.findSome? (·.translate)))) (c := c)
      (fun f : Field V => (output.lookup f.pulumi).getD .none) rfl fs { items := [], fields := [] } hne
    unfold Class.store at h1
    rw [hd, hi] at h1
    rw [hd, hi]
    exact h1

example : ∃ c i, outputType (declare .short exFields false (some fun s => "_" ++ s) [exBase] true) = .ok c ∧
    c.fromDict [("firstArg", .val 3), ("extra", .val 9)] = .ok i ∧ c.read i "first_arg" = .ok (.val 3) ∧
    c.read i "second" = .ok .none :=
  ⟨_, _, rfl, rfl, rfl, rfl⟩

example : ∀ f ∈ exFields, ∀ g ∈ exFields, keyOf (some fun s => "_" ++ s) f = keyOf (some fun s => "_" ++ s) g → f = g := by
  intro f hf g hg
  simp only [exFields, List.mem_cons, List.not_mem_nil, or_false] at hf hg
  rcases hf with rfl | rfl <;> rcases hg with rfl | rfl <;> intro e
  · rfl
  · exact absurd e (by decide)
  · exact absurd e (by decide)
  · rfl

/-- The default that an output type declares for a property is not used when the engine leaves the property out. -/
theorem output_default_ignored :
    let fs : List (Field Nat) := [{ py := "size", pulumi := "size", ty := .cls "int" false, dflt := .given (.val 10) }]
    ∃ c i, outputType (declare .short fs false none [] false) = .ok c ∧ c.fromDict [] = .ok i ∧
      c.read i "size" = .ok .none := ⟨_, _, rfl, rfl, rfl⟩

/-! ## C115: equality -/

/-- The generated `__eq__`: two new instances of an input type are equal exactly if all their properties are. -/
theorem constructed_equal (form : Form) {fs : List (Field V)} (h : Good fs) {bases : List (ClassDict V)}
    (hb : ∀ b ∈ bases, Neutral fs b) (tr : Option (String → String)) (isDict : Bool) :
    ∃ c, inputType (declare form fs true tr bases isDict) = .ok c ∧
      ∀ kwargs kwargs' a b, c.construct kwargs = .ok a → c.construct kwargs' = .ok b →
        (c.eq a b ↔ ∀ f ∈ fs, c.read a f.py = c.read b f.py) := by
  obtain ⟨c, e, _, r⟩ := realises_input h hb form isDict tr
  refine ⟨c, e, ?_⟩
  intro kw kw' a b ha hb'
  have acc : ∀ {kw i}, c.construct kw = .ok i → Acceptable fs kw := by
    intro kw i hi
    by_cases ha : Acceptable fs kw
    · exact ha
    · rw [r.construct_error ha] at hi
      cases hi
  have ea := r.construct h (acc ha)
  have eb := r.construct h (acc hb')
  rw [ha] at ea
  rw [hb'] at eb
  have ea := Except.ok.inj ea
  have eb := Except.ok.inj eb
  constructor
  · intro heq f hf
    rw [r.read h hf, r.read h hf, heq]
  · intro hr k
    have hv : ∀ f ∈ fs, argOf kw f = argOf kw' f := by
      intro f hf
      have := hr f hf
      rw [ea, eb, r.read_filled h (apart_py h) _ hf, r.read_filled h (apart_py h) _ hf] at this
      exact Except.ok.inj this
    by_cases hk : ∃ f ∈ fs, f.py = k
    · obtain ⟨f, hf, rfl⟩ := hk
      rw [ea, eb, store_filled (apart_py h) _ rfl fs _ (fun _ hg => hg) f hf,
        store_filled (apart_py h) _ rfl fs _ (fun _ hg => hg) f hf, hv f hf]
    · rw [ea, eb, store_filled_none _ rfl fs _ (fun f hf e => hk ⟨f, hf, e⟩),
        store_filled_none _ rfl fs _ (fun f hf e => hk ⟨f, hf, e⟩)]

example : ∃ c a b, inputType (declare .short exFields true none [exBase] false) = .ok c ∧
    c.construct [("first_arg", .val 3), ("second", .none)] = .ok a ∧ c.construct [("first_arg", .val 3)] = .ok b ∧ c.eq a b :=
  ⟨_, _, _, rfl, rfl, rfl, fun _ => rfl⟩

/-- After an assignment this is not so: two instances that read and are sent the same are unequal, because one was assigned
`None`. -/
theorem assigned_none_unequal :
    ∃ c a b, inputType (declare .short exFields true none [] false) = .ok c ∧
      c.construct [("first_arg", .val 3)] = .ok a ∧ c.assign a "second" .none = .ok b ∧
      (∀ f ∈ exFields, c.read a f.py = c.read b f.py) ∧ c.toDict a = c.toDict b ∧ ¬ c.eq a b := by
  refine ⟨_, _, _, rfl, rfl, rfl, ?_, rfl, ?_⟩
  · intro f hf
    simp only [exFields, List.mem_cons, List.not_mem_nil, or_false] at hf
    rcases hf with rfl | rfl <;> rfl
  · intro he
    have := he "second"
    revert this
    decide

/-! ## C116: subclasses -/

/-- A subclass that is not decorated. -/
def Class.subclass (c : Class V) (own : ClassDict V) : Class V := { own := own, bases := c.mro, isDict := c.isDict }

/-- A class body that has nothing of the properties, other than annotations. -/
structure Plain (fs : List (Field V)) (d : ClassDict V) : Prop extends Neutral fs d where
  init : d.init = none
  translate : d.translate = none

theorem realises_subclass {c : Class V} {fs : List (Field V)} {input : Bool} {key : Field V → String}
    (r : Realises c fs input key) {own : ClassDict V} (ho : Plain fs own) : Realises (c.subclass own) fs input key := by
  have hin : (c.subclass own).isInputType = c.isInputType := by
    unfold Class.isInputType
    show ((own :: c.mro).any _) = _
    rw [List.any_cons, ho.input]
    rfl
  have hout : (c.subclass own).isOutputType = c.isOutputType := by
    unfold Class.isOutputType
    show ((own :: c.mro).any _) = _
    rw [List.any_cons, ho.output]
    rfl
  have htr : (c.subclass own).translate = c.translate := by
    unfold Class.translate
    show ((own :: c.mro).findSome? _) = _
    rw [List.findSome?_cons, ho.translate]
  have htab : (c.subclass own).table = c.table := by
    unfold Class.table
    show ((own :: c.mro).findSome? _) = _
    rw [List.findSome?_cons, ho.table]
  have hinit : (c.subclass own).init = c.init := by
    unfold Class.init
    show ((own :: c.mro).findSome? _) = _
    rw [List.findSome?_cons, ho.init]
  have hprops : (c.subclass own).pyProperties = c.pyProperties := by
    unfold Class.pyProperties
    show (List.reverse (own :: c.mro)).flatMap _ = _
    rw [List.reverse_cons, List.flatMap_append]
    simp [ho.props]
  have hname : ∀ n, (c.subclass own).translateName n = c.translateName n := by
    intro n
    unfold Class.translateName
    rw [hout, htr, htab]
  have hput : ∀ i k v, (c.subclass own).put i k v = c.put i k v := fun _ _ _ => rfl
  refine ⟨hin.trans r.isInput, hout.trans r.isOutput, ?_, ?_, ?_, ?_, ?_⟩
  · intro f hf
    unfold Class.findAttr
    show ((own :: c.mro).findSome? _) = _
    rw [List.findSome?_cons, ho.attrs f hf]
    exact r.attr f hf
  · intro x
    rw [hprops]
    exact r.props x
  · rw [hprops]
    exact r.nodup
  · intro f hf
    rw [hname]
    exact r.name f hf
  · obtain ⟨line, h1, h2⟩ := r.init
    refine ⟨line, hinit.trans h1, fun f hf => ⟨(h2 f hf).1, (h2 f hf).2.1, fun i v => ?_⟩⟩
    rw [hput, ← (h2 f hf).2.2 i v]
    cases (line f).target with
    | own k => rfl
    | translated n =>
      unfold Class.storeArg
      rw [htr]
      cases c.translate <;> rfl
    | set n =>
      unfold Class.storeArg Class.set
      simp only [hin, hout, hname]
      rfl

/-- A subclass of an input type that is not decorated itself is used like the input type: whatever methods and annotations
it adds, it is called with the same arguments, and the same is read and sent. Annotations of its own make no properties. -/
theorem subclass_of_input_type (form : Form) {fs : List (Field V)} (h : Good fs) {bases : List (ClassDict V)}
    (hb : ∀ b ∈ bases, Neutral fs b) (tr : Option (String → String)) (isDict : Bool) {own : ClassDict V} (ho : Plain fs own) :
    ∃ c, inputType (declare form fs true tr bases isDict) = .ok c ∧ ∀ kwargs,
      (Acceptable fs kwargs → ∃ i d, (c.subclass own).construct kwargs = .ok i ∧
        (∀ f ∈ fs, (c.subclass own).read i f.py = .ok (argOf kwargs f)) ∧
        (c.subclass own).toDict i = .ok d ∧ Sent d fs (argOf kwargs)) ∧
      (¬ Acceptable fs kwargs → (c.subclass own).construct kwargs = .error .typeError) := by
  obtain ⟨c, e, _, r0⟩ := realises_input h hb form isDict tr
  have r := realises_subclass r0 ho
  refine ⟨c, e, fun kwargs => ⟨fun ha => ?_, r.construct_error⟩⟩
  have hr := fun f (hf : f ∈ fs) => r.read_filled h (apart_py h) (argOf kwargs) hf
  obtain ⟨d, hd, hs⟩ := r.toDict h hr
  exact ⟨_, d, r.construct h ha, hr, hd, hs⟩

/-- The annotation of a subclass does not make a property. -/
example : ∃ c : Class Nat, inputType (declare .short exFields true none [] false) = .ok c ∧
    (c.subclass { annotations := [("third", .str)] }).construct [("first_arg", .val 1), ("third", .val 2)] =
      .error .typeError ∧
    Plain exFields ({ annotations := [("third", .str)] } : ClassDict Nat) :=
  ⟨_, rfl, rfl, ⟨fun _ _ => rfl, rfl, rfl, rfl, rfl⟩, rfl, rfl⟩

/-- Neither an input type nor an output type, nor a subclass of one, can be decorated: `AssertionError`. -/
theorem decorated_once (form : Form) {fs : List (Field V)} (h : Good fs) {bases : List (ClassDict V)}
    (hb : ∀ b ∈ bases, Neutral fs b) (tr : Option (String → String)) (isDict input again : Bool) :
    ∃ c, decorate input (declare form fs input tr bases isDict) = .ok c ∧ decorate again c = .error .assertion ∧
      ∀ own, decorate again (c.subclass own) = .error .assertion := by
  have hr : ∃ c key, decorate input (declare form fs input tr bases isDict) = .ok c ∧ Realises c fs input key := by
    cases input with
    | true =>
      obtain ⟨c, e, _, r⟩ := realises_input h hb form isDict tr
      exact ⟨c, _, e, r⟩
    | false =>
      obtain ⟨c, e, _, r⟩ := realises_output h hb form isDict tr
      exact ⟨c, _, e, r⟩
  obtain ⟨c, key, e, r⟩ := hr
  have hm := r.typed
  have h2 : ∀ d : Class V, (d.isInputType || d.isOutputType) = true → decorate again d = .error .assertion := by
    intro d hd
    unfold decorate inputType outputType
    rw [hd]
    cases again <;> rfl
  refine ⟨c, e, h2 c hm, fun own => h2 _ ?_⟩
  unfold Class.isInputType Class.isOutputType
  show ((own :: c.mro).any _ || (own :: c.mro).any _) = true
  rw [List.any_cons, List.any_cons]
  unfold Class.isInputType Class.isOutputType at hm
  rcases Bool.or_eq_true _ _ ▸ hm with h1 | h1
  · rw [h1]; simp
  · rw [h1]; simp

theorem defaultsLast_false {fs : List (Field V)} {b : Field V} {seen : Bool} (hs : seen = true) (hb : b ∈ fs)
    (hd : b.dflt.has = false) : defaultsLast seen (fs.map toProp) = false := by
  subst hs
  induction fs with
  | nil => cases hb
  | cons f fs ih =>
    simp only [List.map_cons, defaultsLast]
    by_cases hf : (toProp f).dflt.has = true
    · rw [if_pos hf]
      rcases List.mem_cons.1 hb with rfl | hb
      · rw [show (toProp b).dflt.has = false from hd] at hf
        cases hf
      · exact ih hb
    · rw [if_neg hf]
      rfl

/-- A property without default must not follow one with a default: decorating the class raises `TypeError`. -/
theorem defaults_come_last {pre post : List (Field V)} {a b : Field V} (ha : a.dflt.has = true) (hm : b ∈ post)
    (hd : b.dflt.has = false) (h : Named (pre ++ a :: post)) {bases : List (ClassDict V)}
    (hb : ∀ b ∈ bases, Neutral (pre ++ a :: post) b) (tr : Option (String → String)) (isDict input : Bool) :
    decorate input (declare .short (pre ++ a :: post) input tr bases isDict) = .error .typeError := by
  have hl : ∀ seen, defaultsLast seen ((pre ++ a :: post).map toProp) = false := by
    clear h hb
    induction pre with
    | nil =>
      intro seen
      simp only [List.nil_append, List.map_cons, defaultsLast]
      rw [if_pos (show (toProp a).dflt.has = true from ha)]
      exact defaultsLast_false rfl hm hd
    | cons f pre ih =>
      intro seen
      simp only [List.cons_append, List.map_cons, defaultsLast]
      split
      · exact ih _
      · rw [ih]
        simp
  have hp : processClass (declare .short (pre ++ a :: post) input tr bases isDict) input = .error .typeError := by
    unfold processClass
    simp only [short_properties h hb]
    rw [cleanUp_eq _ _ (by
      intro n hn b hb'
      rw [List.map_map] at hn
      obtain ⟨f, hf, rfl⟩ := List.mem_map.1 hn
      exact (hb b hb').attrs f hf) (short_attrs_nodup h)]
    simp only
    rw [foldl_setAttr ((pre ++ a :: post).map toProp) (fun p => p.py) (fun p => Attr.prop (createPyProperty p input))]
    unfold addInit initFn
    rw [hl]
    cases input <;> rfl
  unfold decorate inputType outputType
  rw [not_marked hb]
  cases input <;> simp only [Bool.false_eq_true, if_true, if_false] <;> rw [hp] <;> rfl

example : decorate true (declare .short ([] ++ ({ py := "size", pulumi := "size", ty := .str, dflt := .given (.val 1) } : Field Nat) ::
    [{ py := "name", pulumi := "name", ty := .str }]) true none [] false) = .error .typeError := rfl

/-- A subclass of an undecorated class that is decorated: what its base declares in the short form is lost, and redeclaring
the name that the base gave raises `AttributeError`. -/
theorem redeclared_marker_raises :
    let base : ClassDict Nat := { annotations := [("x", .str)], attrs := [("x", .marker "xName" .missing)] }
    inputType { own := { annotations := [("x", .str)] }, bases := [base] } = .error .attributeError ∧
    ∃ c, inputType { own := { annotations := [("y", .str)] }, bases := [base] } = .ok c ∧
      c.construct [("x", .val 1), ("y", .val 2)] = .error .typeError := ⟨rfl, _, rfl, rfl⟩

/-- A decorated class whose base, not decorated, declares a property with an empty setter: the base's property takes the
place of one of the same name that the class declares itself. -/
theorem overridden_property_lost :
    let base : ClassDict Nat := { attrs := [("x", .prop { getter "x" (some "baseName") none none with fset := .empty })] }
    let ini : Init Nat := { params := [("x", .missing)], body := [⟨"x", false, .set "x"⟩] }
    let own : ClassDict Nat :=
      { attrs := [("x", .prop { getter "x" (some "ownName") none none with fset := .empty })], init := some ini }
    ∃ c i, inputType { own := own, bases := [base] } = .ok c ∧ c.construct [("x", .val 1)] = .ok i ∧
      c.toDict i = .ok [("baseName", .val 1)] := ⟨_, _, rfl, rfl, rfl⟩

/-! ## C117: resource classes -/

theorem resource_props_short (fs : List (Field V)) {bases : List (ClassDict V)} (hb : ∀ b ∈ bases, Neutral fs b)
    (tr : Option (String → String)) (isDict : Bool) : (declare .short fs false tr bases isDict).pyProperties = [] := by
  unfold Class.pyProperties Class.mro
  rw [List.reverse_cons, List.flatMap_append]
  show bases.reverse.flatMap _ ++ _ = _
  rw [bases_no_props hb]
  simp only [List.nil_append, List.flatMap_cons, List.flatMap_nil, List.append_nil]
  unfold dictProperties
  show List.filterMap _ (fs.filterMap _) = []
  rw [List.filterMap_filterMap, List.filterMap_eq_nil_iff]
  intro f _
  unfold Field.assigned
  cases f.plain with
  | false => rfl
  | true => cases f.dflt <;> rfl

theorem resource_names_short {fs : List (Field V)} (h : Named fs) {bases : List (ClassDict V)} (hb : ∀ b ∈ bases, Neutral fs b)
    (tr : Option (String → String)) (isDict : Bool) :
    (declare .short fs false tr bases isDict).annotatedNames = fs.map fun f => (f.py, f.pulumi) := by
  unfold Class.annotatedNames
  show List.map _ (fs.map fun f => (f.py, f.ty)) = _
  rw [List.map_map]
  apply List.map_congr_left
  intro f hf
  have hfind : (declare .short fs false tr bases isDict).findAttr f.py = f.assigned := by
    rw [findAttr_own (fun b hb' => (hb b hb').attrs f hf)]
    exact short_attrs_lookup h hf
  show (f.py, _) = (f.py, _)
  simp only [hfind]
  unfold Field.assigned
  cases hp : f.plain with
  | false => rfl
  | true =>
    have := h.plain f hf hp
    cases hd : f.dflt with
    | missing => simp [this]
    | given v => simp [this]

theorem resource_props_verbose (fs : List (Field V)) {bases : List (ClassDict V)} (hb : ∀ b ∈ bases, Neutral fs b)
    (tr : Option (String → String)) (isDict : Bool) : (declare .verbose fs false tr bases isDict).pyProperties =
      fs.map fun f => (f.py, f.pulumi, getter f.py (some f.pulumi) (some f.ty) none) := by
  unfold Class.pyProperties Class.mro
  rw [List.reverse_cons, List.flatMap_append]
  show bases.reverse.flatMap _ ++ _ = _
  rw [bases_no_props hb]
  simp only [List.nil_append, List.flatMap_cons, List.flatMap_nil, List.append_nil]
  unfold dictProperties
  show List.filterMap _ (fs.map _) = _
  rw [List.filterMap_map]
  clear hb
  induction fs with
  | nil => rfl
  | cons f fs ih => exact congrArg (_ :: ·) ih

theorem lookup_dictOf_map {α β : Type} (xs : List α) (key : α → String) (g : α → β) (hn : (xs.map key).Nodup) (n : String) :
    (dictOf (xs.map fun x => (key x, g x))).lookup n = (xs.find? fun x => key x == n).map g := by
  unfold dictOf
  rw [List.foldl_map, lookup_foldl_setKey xs key g [] n hn]
  cases xs.find? fun x => key x == n <;> rfl

theorem lookup_merge_nil {α : Type} (b : List (String × α)) : merge [] b = dictOf b := rfl

/-- The tables of names of a resource class, declared either way. -/
theorem resource_tables (form : Form) {fs : List (Field V)} (h : Named fs) {bases : List (ClassDict V)}
    (hb : ∀ b ∈ bases, Neutral fs b) (tr : Option (String → String)) (isDict : Bool) :
    (∀ n, (declare form fs false tr bases isDict).resourcePyToPulumi.lookup n = (fs.find? fun f => f.py == n).map (·.pulumi)) ∧
    (∀ n, (declare form fs false tr bases isDict).resourcePulumiToPy.lookup n = (fs.find? fun f => f.pulumi == n).map (·.py)) := by
  cases form with
  | short =>
    unfold Class.resourcePyToPulumi Class.resourcePulumiToPy Class.pyToPulumi Class.pulumiToPy
    rw [resource_props_short fs hb, resource_names_short h hb]
    constructor
    · intro n
      exact lookup_dictOf_map fs (fun f => f.py) (fun f => f.pulumi) h.py n
    · intro n
      rw [List.map_map]
      exact lookup_dictOf_map fs (fun f => f.pulumi) (fun f => f.py) h.pulumi n
  | verbose =>
    unfold Class.resourcePyToPulumi Class.resourcePulumiToPy Class.pyToPulumi Class.pulumiToPy
    rw [resource_props_verbose fs hb, List.map_map, List.map_map]
    have hann : (declare .verbose fs false tr bases isDict).annotatedNames = [] := rfl
    rw [hann]
    have hmerge : ∀ ys : List (String × String), (ys.map (·.1)).Nodup → ∀ n, (merge (dictOf []) (dictOf ys)).lookup n = ys.lookup n := by
      intro ys hys n
      unfold merge
      have hk : ((dictOf ys).map (·.1)).Nodup := foldl_setKey_nodup ys (fun y => y.1) (fun y => y.2) [] (by simp)
      rw [lookup_foldl_setKey (dictOf ys) (fun y => y.1) (fun y => y.2) (dictOf []) n hk]
      have hd : (dictOf ys).lookup n = ys.lookup n := by
        unfold dictOf
        rw [lookup_foldl_setKey ys (fun y => y.1) (fun y => y.2) [] n hys]
        have := lookup_map_find ys (fun y => y.1) (fun y => y.2) n
        rw [show ys.map (fun y => (y.1, y.2)) = ys from by simp] at this
        rw [this]
        cases ys.find? fun y => y.1 == n <;> rfl
      rw [← hd]
      have := lookup_map_find (dictOf ys) (fun y => y.1) (fun y => y.2) n
      rw [show (dictOf ys).map (fun y => (y.1, y.2)) = dictOf ys from by simp] at this
      rw [this]
      cases (dictOf ys).find? fun y => y.1 == n <;> rfl
    constructor
    · intro n
      rw [hmerge _ (by rw [List.map_map]; exact h.py)]
      exact lookup_map_find fs (fun f => f.py) (fun f => f.pulumi) n
    · intro n
      rw [List.map_nil, hmerge _ (by rw [List.map_map]; exact h.pulumi)]
      exact lookup_map_find fs (fun f => f.pulumi) (fun f => f.py) n

theorem nameOr_some {t : List (String × String)} {k n : String} (h : t.lookup k = some n) (hn : n ≠ "") : nameOr t k = n := by
  unfold nameOr
  rw [h]
  simp only
  rw [if_neg hn]

theorem find_pulumi {fs : List (Field V)} (h : Named fs) {f : Field V} (hf : f ∈ fs) :
    fs.find? (fun g => g.pulumi == f.pulumi) = some f := find_of_mem (key := fun g : Field V => g.pulumi) h.pulumi hf

theorem find_py {fs : List (Field V)} (h : Named fs) {f : Field V} (hf : f ∈ fs) :
    fs.find? (fun g => g.py == f.py) = some f := find_of_mem (key := fun g : Field V => g.py) h.py hf

/-- What the engine returned under the Pulumi name of a property is what the resource has under its Python name, `None` if
nothing. Of the names that the engine returns, those that are no Pulumi names of properties must not be Python names of
properties either. -/
theorem resource_outputs_found (form : Form) {fs : List (Field V)} (h : Named fs) {bases : List (ClassDict V)}
    (hb : ∀ b ∈ bases, Neutral fs b) (tr : Option (String → String)) (isDict : Bool) (props : List String) (outputs : Store V)
    (hp : ∀ f ∈ fs, f.py ∈ props ∧ f.py ≠ "id" ∧ f.py ≠ "urn") (hn : (outputs.map (·.1)).Nodup)
    (ho : ∀ kv ∈ outputs, (∃ f ∈ fs, f.pulumi = kv.1) ∨ ∀ f ∈ fs, f.py ≠ kv.1) :
    ∀ f ∈ fs, (declare form fs false tr bases isDict).readResource
        ((declare form fs false tr bases isDict).resolve props outputs) f.py =
      .ok ((outputs.lookup f.pulumi).getD .none) := by
  intro f hf
  obtain ⟨-, t2⟩ := resource_tables form h hb tr isDict
  have hown : ∀ g ∈ fs, nameOr (declare form fs false tr bases isDict).resourcePulumiToPy g.pulumi = g.py := by
    intro g hg
    exact nameOr_some (by rw [t2, find_pulumi h hg]; rfl) (h.named g hg).1
  have hnot : ∀ k, (¬ ∃ g ∈ fs, g.pulumi = k) → nameOr (declare form fs false tr bases isDict).resourcePulumiToPy k = k := by
    intro k hk
    unfold nameOr
    rw [t2, find_none_of (key := fun g : Field V => g.pulumi) fun g hg e => hk ⟨g, hg, e⟩]
    rfl
  have key : ∀ kv ∈ outputs, nameOr (declare form fs false tr bases isDict).resourcePulumiToPy kv.1 = f.py ↔ kv.1 = f.pulumi := by
    intro kv hkv
    constructor
    · intro e
      rcases ho kv hkv with ⟨g, hg, hgk⟩ | hno
      · rw [← hgk, hown g hg] at e
        have := find_py h hg
        rw [e, find_py h hf] at this
        rw [← hgk, Option.some.inj this]
      · by_cases hex : ∃ g ∈ fs, g.pulumi = kv.1
        · obtain ⟨g, hg, hgk⟩ := hex
          rw [← hgk, hown g hg] at e
          have := find_py h hg
          rw [e, find_py h hf] at this
          rw [← hgk, Option.some.inj this]
        · rw [hnot _ hex] at e
          exact absurd e.symm (hno f hf)
    · intro e
      rw [e]
      exact hown f hf
  have hdict : (dictOf (outputs.map fun kv => (nameOr (declare form fs false tr bases isDict).resourcePulumiToPy kv.1, kv.2))).lookup f.py
      = outputs.lookup f.pulumi := by
    generalize nameOr (declare form fs false tr bases isDict).resourcePulumiToPy = tn at key
    clear ho
    unfold dictOf
    rw [List.foldl_map]
    have : ∀ (os : Store V) (d : Store V), (os.map (·.1)).Nodup → (∀ kv ∈ os, tn kv.1 = f.py ↔ kv.1 = f.pulumi) →
        (os.foldl (fun d kv => setKey d (tn kv.1) kv.2) d).lookup f.py =
          match os.lookup f.pulumi with
          | some v => some v
          | none => d.lookup f.py := by
      intro os
      induction os with
      | nil => intro d _ _; rfl
      | cons kv os ih =>
        intro d hnd hk
        rw [List.map_cons, List.nodup_cons] at hnd
        rw [List.foldl_cons, ih _ hnd.2 fun x hx => hk x (List.mem_cons_of_mem _ hx)]
        obtain ⟨k, v⟩ := kv
        rw [List.lookup_cons, lookup_setKey]
        have hkk := hk (k, v) (List.mem_cons_self ..)
        simp only at hkk
        by_cases e : k = f.pulumi
        · subst e
          have hnone : os.lookup f.pulumi = none := Pulumi.Wire.lookup_none hnd.1
          rw [hnone, if_pos (hkk.2 rfl).symm]
          simp
        · have hb2 : (f.pulumi == k) = false := by simpa using fun e' => e e'.symm
          rw [hb2, if_neg (fun e' => e (hkk.1 e'.symm))]
    rw [this outputs [] hn key]
    cases outputs.lookup f.pulumi <;> rfl
  have hfield : ((declare form fs false tr bases isDict).resolve props outputs).fields.lookup f.py =
      some ((outputs.lookup f.pulumi).getD .none) := by
    unfold Class.resolve
    simp only
    rw [lookup_map_find _ (fun n => n)]
    have : (props.filter fun n => n != "id" && n != "urn").find? (fun x => x == f.py) = some f.py := by
      have hmem : f.py ∈ props.filter fun n => n != "id" && n != "urn" :=
        List.mem_filter.2 ⟨(hp f hf).1, by simp [(hp f hf).2.1, (hp f hf).2.2]⟩
      cases hfd : (props.filter fun n => n != "id" && n != "urn").find? (fun x => x == f.py) with
      | none => exact absurd (List.find?_eq_none.1 hfd _ hmem) (by simp)
      | some x => rw [show x = f.py by simpa using List.find?_some hfd]
    rw [this, Option.map_some, hdict]
  unfold Class.readResource
  cases form with
  | short =>
    have hfind : (declare .short fs false tr bases isDict).findAttr f.py = f.assigned := by
      rw [findAttr_own (fun b hb' => (hb b hb').attrs f hf)]
      exact short_attrs_lookup h hf
    rw [hfind, hfield]
    unfold Field.assigned
    cases f.plain with
    | false => rfl
    | true => cases f.dflt <;> rfl
  | verbose =>
    have hfind : (declare .verbose fs false tr bases isDict).findAttr f.py =
        some (.prop { getter f.py (some f.pulumi) (some f.ty) none with fset := .absent }) := by
      rw [findAttr_own (fun b hb' => (hb b hb').attrs f hf)]
      show (fs.map fun f => (f.py, _)).lookup f.py = _
      rw [lookup_map_find fs (fun f => f.py), find_py h hf]
      rfl
    rw [hfind]
    show (if f.py = "" then _ else _) = _
    rw [if_neg (h.named f hf).1, hfield]
    rfl

def exOutputs : Store Nat := [("extra", .val 9), ("second", .val 4), ("firstArg", .val 3)]

example : (∀ f ∈ exFields, f.py ∈ ["first_arg", "second"] ∧ f.py ≠ "id" ∧ f.py ≠ "urn") ∧
    (exOutputs.map (·.1)).Nodup ∧ ∀ kv ∈ exOutputs, (∃ f ∈ exFields, f.pulumi = kv.1) ∨ ∀ f ∈ exFields, f.py ≠ kv.1 := by
  refine ⟨?_, by decide, ?_⟩ <;> simp [exFields, exOutputs]

example : (declare .short exFields false none [exBase] false).readResource
    ((declare .short exFields false none [exBase] false).resolve ["first_arg", "second"] exOutputs) "first_arg" =
  .ok (.val 3) := rfl

/-- The options `additional_secret_outputs` (names of a resource class), `ignore_changes` and `replace_on_changes` (names of
its arguments class) name properties in Python; the engine is sent their Pulumi names. -/
theorem option_names_translated (form : Form) {fs : List (Field V)} (h : Good fs) {bases : List (ClassDict V)}
    (hb : ∀ b ∈ bases, Neutral fs b) (tr : Option (String → String)) (isDict : Bool) (gs : List (Field V))
    (hg : ∀ g ∈ gs, g ∈ fs) :
    (declare form fs false tr bases isDict).outputNames (gs.map (·.py)) = gs.map (·.pulumi) ∧
    ∃ c, inputType (declare form fs true tr bases isDict) = .ok c ∧ c.inputNames (gs.map (·.py)) = gs.map (·.pulumi) := by
  constructor
  · unfold Class.outputNames
    rw [List.map_map]
    apply List.map_congr_left
    intro g hgg
    refine nameOr_some ?_ (h.named g (hg g hgg)).2
    rw [(resource_tables form h.toNamed hb tr isDict).1, find_py h.toNamed (hg g hgg)]
    rfl
  · obtain ⟨c, e, _, r⟩ := realises_input h hb form isDict tr
    refine ⟨c, e, ?_⟩
    unfold Class.inputNames
    rw [List.map_map]
    apply List.map_congr_left
    intro g hgg
    refine nameOr_some ?_ (h.named g (hg g hgg)).2
    rw [names_of r, find_py h.toNamed (hg g hgg)]
    rfl

example : (declare .short exFields false none [exBase] false).outputNames ["second", "first_arg"] = ["second", "firstArg"] :=
  rfl

/-- Only whole names are translated: a path into a property is sent as it was written. -/
theorem nested_option_name_kept :
    (declare .short exFields false none [] false).outputNames ["first_arg.size"] = ["first_arg.size"] ∧
    ∃ c : Class Nat, inputType (declare .short exFields true none [] false) = .ok c ∧
      c.inputNames ["first_arg[0]"] = ["first_arg[0]"] := ⟨rfl, _, rfl, rfl⟩

/-- A subclass of a resource class that is declared by getters keeps the names. -/
theorem subclass_names_kept {fs : List (Field V)} (h : Named fs) {bases : List (ClassDict V)}
    (hb : ∀ b ∈ bases, Neutral fs b) (tr : Option (String → String)) (isDict : Bool) {own : ClassDict V} (ho : Plain fs own)
    (ha : own.annotations = []) :
    let c := (declare .verbose fs false tr bases isDict).subclass own
    (∀ n, c.resourcePyToPulumi.lookup n = (fs.find? fun f => f.py == n).map (·.pulumi)) ∧
    ∀ n, c.resourcePulumiToPy.lookup n = (fs.find? fun f => f.pulumi == n).map (·.py) := by
  have hprops : ((declare .verbose fs false tr bases isDict).subclass own).pyProperties =
      (declare .verbose fs false tr bases isDict).pyProperties := by
    unfold Class.pyProperties
    show (List.reverse (own :: (declare .verbose fs false tr bases isDict).mro)).flatMap _ = _
    rw [List.reverse_cons, List.flatMap_append]
    simp [ho.props]
  have hann : ((declare .verbose fs false tr bases isDict).subclass own).annotatedNames = [] := by
    unfold Class.annotatedNames
    show List.map _ own.annotations = []
    rw [ha]
    rfl
  have hann' : (declare .verbose fs false tr bases isDict).annotatedNames = [] := rfl
  have := resource_tables .verbose h hb tr isDict
  unfold Class.resourcePyToPulumi Class.resourcePulumiToPy Class.pyToPulumi Class.pulumiToPy at this ⊢
  simp only
  rw [hprops, hann]
  rw [hann'] at this
  exact this

/-- A subclass of a resource class that is declared by annotations loses all of them: the names are not translated, the
engine's values are not found, and an attribute that was declared by `pulumi.property` is the object which that returned. -/
theorem subclass_names_lost {fs : List (Field V)} {bases : List (ClassDict V)} (hb : ∀ b ∈ bases, Neutral fs b)
    (tr : Option (String → String)) (isDict : Bool) {own : ClassDict V} (ho : Plain fs own) (ha : own.annotations = []) :
    let c := (declare .short fs false tr bases isDict).subclass own
    c.resourcePyToPulumi = [] ∧ c.resourcePulumiToPy = [] ∧ c.resourceTypes = .ok [] := by
  have hprops : ((declare .short fs false tr bases isDict).subclass own).pyProperties = [] := by
    rw [← resource_props_short fs hb tr isDict]
    unfold Class.pyProperties
    show (List.reverse (own :: (declare .short fs false tr bases isDict).mro)).flatMap _ = _
    rw [List.reverse_cons, List.flatMap_append]
    simp [ho.props]
  have hann : ((declare .short fs false tr bases isDict).subclass own).own.annotations = [] := ha
  unfold Class.resourcePyToPulumi Class.resourcePulumiToPy Class.pyToPulumi Class.pulumiToPy Class.resourceTypes
    Class.typesFromProperties Class.typesFromAnnotations propertiesFromAnnotations Class.annotatedNames
  simp only
  rw [hprops, hann]
  exact ⟨rfl, rfl, rfl⟩

example : let c := (declare .short exFields false none [] false).subclass {}
    c.readResource (c.resolve [] exOutputs) "first_arg" = .ok (.object "first_arg") ∧
    c.readResource (c.resolve ["first_arg", "second"] exOutputs) "first_arg" = .ok .none ∧
    Plain exFields ({} : ClassDict Nat) :=
  ⟨rfl, rfl, ⟨fun _ _ => rfl, rfl, rfl, rfl, rfl⟩, rfl, rfl⟩

/-! ### Types -/

theorem typeEntries_ok {α : Type} (xs : List α) (name : α → String) (hint : α → Ty) (u : α → Ty)
    (hu : ∀ x ∈ xs, unwrapType (hint x) = .ok (u x)) (hn : (xs.map name).Nodup) (t : List (String × Ty)) :
    ∃ t', typeEntries t (xs.map fun x => (name x, some (hint x))) = .ok t' ∧ ∀ k, t'.lookup k =
      match xs.find? (fun x => name x == k && (u x).beq .outputCls == false) with
      | some x => some (u x)
      | none => t.lookup k := by
  induction xs generalizing t with
  | nil => exact ⟨t, rfl, fun k => rfl⟩
  | cons x xs ih =>
    rw [List.map_cons, List.nodup_cons] at hn
    have hx := hu x (List.mem_cons_self ..)
    have step : ∃ t1, typeEntry t (name x) (some (hint x)) = .ok t1 ∧
        ∀ k, t1.lookup k = if k = name x ∧ (u x).beq .outputCls = false then some (u x) else t.lookup k := by
      unfold typeEntry
      simp only [hx]
      cases hux : u x with
      | outputCls => exact ⟨t, rfl, fun k => by rw [if_neg]; rintro ⟨_, h⟩; cases h⟩
      | _ =>
        refine ⟨setKey t (name x) (u x), by rw [hux]; rfl, fun k => ?_⟩
        rw [lookup_setKey, hux]
        by_cases e : k = name x
        · rw [if_pos e, if_pos ⟨e, rfl⟩]
        · rw [if_neg e, if_neg (fun h => e h.1)]
    obtain ⟨t1, e1, h1⟩ := step
    obtain ⟨t', e2, h2⟩ := ih (fun y hy => hu y (List.mem_cons_of_mem _ hy)) hn.2 t1
    refine ⟨t', ?_, ?_⟩
    · rw [List.map_cons, typeEntries, e1]
      exact e2
    · intro k
      rw [h2 k, List.find?_cons]
      by_cases e : name x = k
      · have hnone : xs.find? (fun x => name x == k && (u x).beq .outputCls == false) = none := by
          rw [List.find?_eq_none]
          intro y hy
          simp only [Bool.and_eq_true, beq_iff_eq, not_and]
          intro e'
          exact absurd (List.mem_map.2 ⟨y, hy, e'.trans e.symm⟩) hn.1
        rw [hnone]
        simp only
        rw [h1 k]
        cases hb : (u x).beq .outputCls with
        | true =>
          rw [if_neg (by rintro ⟨_, h⟩; cases h)]
          simp [hnone]
        | false =>
          rw [if_pos ⟨e.symm, rfl⟩]
          simp [e]
      · have hb : (name x == k) = false := by simpa using e
        rw [hb, Bool.false_and]
        simp only
        cases xs.find? (fun x => name x == k && (u x).beq .outputCls == false) with
        | some y => rfl
        | none =>
          simp only
          rw [h1 k, if_neg (fun h => e h.1.symm)]

theorem typeEntries_nodup (xs : List (String × Option Ty)) (t t' : List (String × Ty)) (h : typeEntries t xs = .ok t')
    (hn : (t.map (·.1)).Nodup) : (t'.map (·.1)).Nodup := by
  induction xs generalizing t with
  | nil =>
    cases h
    exact hn
  | cons x xs ih =>
    unfold typeEntries at h
    cases h1 : typeEntry t x.1 x.2 with
    | error e => rw [h1] at h; cases h
    | ok t1 =>
      rw [h1] at h
      refine ih t1 h ?_
      unfold typeEntry at h1
      cases hx : x.2 with
      | none => rw [hx] at h1; cases h1; exact hn
      | some hint =>
        rw [hx] at h1
        simp only at h1
        cases hu : unwrapType hint with
        | error e => rw [hu] at h1; cases h1
        | ok u =>
          rw [hu] at h1
          cases u with
          | outputCls => cases h1; exact hn
          | _ => cases h1; exact setKey_nodup hn _ _

theorem types_lookup {α : Type} {xs : List α} {name : α → String} {u : α → Ty} (hn : (xs.map name).Nodup) {x : α} (hx : x ∈ xs) :
    (match xs.find? (fun y => name y == name x && (u y).beq .outputCls == false) with
      | some y => some (u y)
      | none => ([] : List (String × Ty)).lookup (name x)) = if (u x).beq .outputCls then none else some (u x) := by
  have huniq : ∀ y ∈ xs, name y = name x → y = x := by
    intro y hy e
    have h1 := find_of_mem hn hy
    have h2 := find_of_mem hn hx
    rw [e, h2] at h1
    exact (Option.some.inj h1).symm
  cases hf : xs.find? (fun y => name y == name x && (u y).beq .outputCls == false) with
  | some y =>
    have hy := List.find?_some hf
    simp only [Bool.and_eq_true, beq_iff_eq] at hy
    have := huniq y (List.mem_of_find?_eq_some hf) hy.1
    subst this
    rw [hy.2]
    rfl
  | none =>
    have := List.find?_eq_none.1 hf x hx
    simp only [beq_self_eq_true, Bool.true_and, beq_iff_eq] at this
    rw [if_pos (by cases h : (u x).beq .outputCls <;> simp_all)]
    rfl

theorem types_lookup_none {α : Type} {xs : List α} {name : α → String} {u : α → Ty} {k : String} (hk : ∀ x ∈ xs, name x ≠ k) :
    (match xs.find? (fun y => name y == k && (u y).beq .outputCls == false) with
      | some y => some (u y)
      | none => ([] : List (String × Ty)).lookup k) = none := by
  have : xs.find? (fun y => name y == k && (u y).beq .outputCls == false) = none := by
    rw [List.find?_eq_none]
    intro y hy
    have : (name y == k) = false := by simpa using hk y hy
    rw [this]
    simp
  rw [this]
  rfl

/-- The engine's values of a resource are converted by the types of its properties: the table that is used for it has, under
the Pulumi name of each property, its type without the wrappers (`unwrapType`, see C110), and nothing for a property whose
type is just `Output`. -/
theorem resource_types_found (form : Form) {fs : List (Field V)} (h : Named fs) {bases : List (ClassDict V)}
    (hb : ∀ b ∈ bases, Neutral fs b) (tr : Option (String → String)) (isDict : Bool) (u : Field V → Ty)
    (hu : ∀ f ∈ fs, unwrapType f.ty = .ok (u f)) :
    ∃ t, (declare form fs false tr bases isDict).resourceTypes = .ok t ∧
      (∀ f ∈ fs, t.lookup f.pulumi = if (u f).beq .outputCls then none else some (u f)) ∧
      ∀ k, (∀ f ∈ fs, f.pulumi ≠ k) → t.lookup k = none := by
  obtain ⟨t, e, ht⟩ := typeEntries_ok fs (fun f => f.pulumi) (fun f => f.ty) u hu h.pulumi []
  have hgood : (∀ f ∈ fs, t.lookup f.pulumi = if (u f).beq .outputCls then none else some (u f)) ∧
      ∀ k, (∀ f ∈ fs, f.pulumi ≠ k) → t.lookup k = none :=
    ⟨fun f hf => (ht f.pulumi).trans (types_lookup (name := fun f : Field V => f.pulumi) h.pulumi hf),
     fun k hk => (ht k).trans (types_lookup_none (name := fun f : Field V => f.pulumi) hk)⟩
  cases form with
  | short =>
    refine ⟨t, ?_, hgood⟩
    unfold Class.resourceTypes Class.typesFromAnnotations Class.typesFromProperties
    rw [short_properties h hb, resource_props_short fs hb, List.map_map]
    show (typeEntries [] (fs.map fun f => (f.pulumi, some f.ty))).bind _ = _
    rw [e]
    rfl
  | verbose =>
    refine ⟨merge [] t, ?_, ?_⟩
    · unfold Class.resourceTypes Class.typesFromAnnotations Class.typesFromProperties
      rw [resource_props_verbose fs hb, List.map_map]
      show (typeEntries [] (fs.map fun f => (f.pulumi, some f.ty))).bind _ = _
      rw [e]
      rfl
    · have hm : ∀ k, (merge [] t).lookup k = t.lookup k ∨ ¬ (t.map (·.1)).Nodup := by
        intro k
        by_cases hnd : (t.map (·.1)).Nodup
        · left
          unfold merge
          rw [lookup_foldl_setKey t (fun y => y.1) (fun y => y.2) [] k hnd]
          have := lookup_map_find t (fun y => y.1) (fun y => y.2) k
          rw [show t.map (fun y => (y.1, y.2)) = t from by simp] at this
          rw [this]
          cases t.find? fun y => y.1 == k <;> rfl
        · exact .inr hnd
      have hnd : (t.map (·.1)).Nodup := typeEntries_nodup _ _ _ e (by simp)
      have hm' : ∀ k, (merge [] t).lookup k = t.lookup k := fun k => (hm k).resolve_right fun h => h hnd
      exact ⟨fun f hf => (hm' _).trans (hgood.1 f hf), fun k hk => (hm' k).trans (hgood.2 k hk)⟩

/-- The same for the engine's values that an output type is made of. -/
theorem output_types_found (form : Form) {fs : List (Field V)} (h : Good fs) {bases : List (ClassDict V)}
    (hb : ∀ b ∈ bases, Neutral fs b) (tr : Option (String → String)) (isDict : Bool) (u : Field V → Ty)
    (hu : ∀ f ∈ fs, unwrapType f.ty = .ok (u f)) :
    ∃ c t, outputType (declare form fs false tr bases isDict) = .ok c ∧ c.typesFromProperties = .ok t ∧
      (∀ f ∈ fs, t.lookup f.pulumi = if (u f).beq .outputCls then none else some (u f)) ∧
      ∀ k, (∀ f ∈ fs, f.pulumi ≠ k) → t.lookup k = none := by
  obtain ⟨c, e, _, r⟩ := realises_output h hb form isDict tr
  have hhint : ∀ x ∈ c.pyProperties, ∃ f ∈ fs, x = (f.py, f.pulumi, theProp false f) := fun x hx => (r.props x).1 hx
  let u' : String × String × PyProp V → Ty := fun x => match unwrapType (x.2.2.hint.getD .any) with
    | .ok t => t
    | .error _ => .any
  have hu' : ∀ f ∈ fs, u' (f.py, f.pulumi, theProp false f) = u f := by
    intro f hf
    show (match unwrapType f.ty with | .ok t => t | .error _ => .any) = _
    rw [hu f hf]
  have hnd : (c.pyProperties.map fun x => x.2.1).Nodup := by
    have hpair : c.pyProperties.Pairwise fun a b => a.2.1 ≠ b.2.1 := by
      have h1 : c.pyProperties.Pairwise fun a b => a.1 ≠ b.1 := (List.pairwise_map.1 r.nodup)
      refine List.Pairwise.imp_of_mem ?_ h1
      intro a b ha hb' hne heq
      obtain ⟨f, hf, rfl⟩ := hhint a ha
      obtain ⟨g, hg, rfl⟩ := hhint b hb'
      have h2 := find_pulumi h.toNamed hf
      rw [show f.pulumi = g.pulumi from heq, find_pulumi h.toNamed hg] at h2
      exact hne (by rw [Option.some.inj h2])
    exact List.pairwise_map.2 hpair
  obtain ⟨t, e1, ht⟩ := typeEntries_ok c.pyProperties (fun x => x.2.1) (fun x => x.2.2.hint.getD .any) u'
    (by
      intro x hx
      obtain ⟨f, hf, rfl⟩ := hhint x hx
      rw [hu' f hf]
      exact hu f hf) hnd []
  refine ⟨c, t, e, ?_, ?_, ?_⟩
  · unfold Class.typesFromProperties
    rw [← e1]
    congr 1
    apply List.map_congr_left
    intro x hx
    obtain ⟨f, hf, rfl⟩ := hhint x hx
    rfl
  · intro f hf
    have hm : (f.py, f.pulumi, theProp false f) ∈ c.pyProperties := (r.props _).2 ⟨f, hf, rfl⟩
    rw [← hu' f hf]
    exact (ht f.pulumi).trans (types_lookup (name := fun x : String × String × PyProp V => x.2.1) hnd hm)
  · intro k hk
    refine (ht k).trans (types_lookup_none (name := fun x : String × String × PyProp V => x.2.1) ?_)
    intro x hx
    obtain ⟨f, hf, rfl⟩ := hhint x hx
    exact hk f hf

example : ∀ f ∈ exFields, unwrapType f.ty = .ok (if f.py = "first_arg" then .str else .cls "float" false) := by
  intro f hf
  simp only [exFields, List.mem_cons, List.not_mem_nil, or_false] at hf
  rcases hf with rfl | rfl <;> rfl

end Pulumi.Types
