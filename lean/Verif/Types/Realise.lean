import Verif.Types.Lemmas

/-! # What the decorators make of a declared class -/

namespace Pulumi.Types

open Pulumi.Wire (setKey lookup_of_mem lookup_none lookup_mem)

variable {V : Type}

def toProp (f : Field V) : Prop_ V := { py := f.py, name := f.pulumi, dflt := f.dflt, ty := f.ty }

/-- The `property` of a field. -/
def theProp (input : Bool) (f : Field V) : PyProp V := createPyProperty (toProp f) input

/-- The attributes are exactly the properties of the fields. -/
structure AttrsOk (fs : List (Field V)) (input : Bool) (attrs : List (String × Attr V)) : Prop where
  nodup : (attrs.map (·.1)).Nodup
  lookup : ∀ n, attrs.lookup n = (fs.find? fun f => f.py == n).map fun f => .prop (theProp input f)

theorem Dflt.has_false {d : Dflt V} (h : d.has = false) : d = .missing := by
  cases d with
  | missing => rfl
  | given v => cases h

theorem short_attrs_nodup {fs : List (Field V)} (h : Named fs) :
    ((fs.filterMap fun f => f.assigned.map fun a => (f.py, a)).map (·.1)).Nodup := by
  have : (fs.filterMap fun f => f.assigned.map fun a => (f.py, a)).map (·.1) =
      (fs.filter fun f => f.assigned.isSome).map (·.py) := by
    clear h
    induction fs with
    | nil => rfl
    | cons f fs ih =>
      rw [List.filterMap_cons, List.filter_cons]
      cases hf : f.assigned with
      | none => simpa using ih
      | some a => simpa using ih
  rw [this]
  exact List.Nodup.sublist (List.Sublist.map _ List.filter_sublist) h.py

theorem short_attrs_lookup {fs : List (Field V)} (h : Named fs) {f : Field V} (hf : f ∈ fs) :
    (fs.filterMap fun f => f.assigned.map fun a => (f.py, a)).lookup f.py = f.assigned := by
  cases ha : f.assigned with
  | some a =>
    exact lookup_of_mem (short_attrs_nodup h) (List.mem_filterMap.2 ⟨f, hf, by rw [ha]; rfl⟩)
  | none =>
    apply lookup_none
    intro hm
    obtain ⟨x, hx, e⟩ := List.mem_map.1 hm
    obtain ⟨g, hg, e2⟩ := List.mem_filterMap.1 hx
    cases hga : g.assigned with
    | none => rw [hga] at e2; cases e2
    | some a =>
      rw [hga] at e2
      simp only [Option.map_some, Option.some.injEq] at e2
      subst e2
      have : g = f := by
        have h1 := find_of_mem h.py hg
        have h2 := find_of_mem h.py hf
        rw [show g.py = f.py from e] at h1
        rw [h1] at h2
        exact Option.some.inj h2
      rw [this, ha] at hga
      cases hga

theorem short_properties {fs : List (Field V)} (h : Named fs) {bases : List (ClassDict V)} (hb : ∀ b ∈ bases, Neutral fs b)
    (input isDict : Bool) (tr : Option (String → String)) :
    propertiesFromAnnotations (declare .short fs input tr bases isDict) = fs.map toProp := by
  unfold propertiesFromAnnotations
  show List.map _ (fs.map fun f => (f.py, f.ty)) = _
  rw [List.map_map]
  apply List.map_congr_left
  intro f hf
  have hfind : (declare .short fs input tr bases isDict).findAttr f.py = f.assigned := by
    rw [findAttr_own (fun b hb' => (hb b hb').attrs f hf)]
    exact short_attrs_lookup h hf
  show getProperty _ (f.py, f.ty) = toProp f
  unfold getProperty
  simp only [hfind]
  unfold Field.assigned toProp
  cases hp : f.plain with
  | false => rfl
  | true =>
    have := h.plain f hf hp
    cases hd : f.dflt with
    | missing => simp [this]
    | given v => simp [this]

theorem defaultsLast_of {fs : List (Field V)} (h : fs.Pairwise fun a b => a.dflt.has = true → b.dflt.has = true)
    {seen : Bool} (hs : seen = true → ∀ f ∈ fs, f.dflt.has = true) : defaultsLast seen (fs.map toProp) = true := by
  induction fs generalizing seen with
  | nil => rfl
  | cons f fs ih =>
    rw [List.pairwise_cons] at h
    simp only [List.map_cons, defaultsLast]
    by_cases hd : f.dflt.has = true
    · rw [if_pos (show (toProp f).dflt.has = true from hd)]
      exact ih h.2 fun _ g hg => h.1 g hg hd
    · rw [if_neg (show ¬ (toProp f).dflt.has = true from hd)]
      have : seen = false := by
        cases seen with
        | false => rfl
        | true => exact absurd (hs rfl f (List.mem_cons_self ..)) hd
      subst this
      simp only [Bool.not_false, Bool.true_and]
      exact ih h.2 fun e => by cases e

/-- The class after `_process_class`. -/
def made (fs : List (Field V)) (input : Bool) (tr : Option (String → String)) (bases : List (ClassDict V)) (isDict : Bool)
    (anns : List (String × Ty)) (attrs : List (String × Attr V)) (init : Init V) : Class V :=
  { own := { attrs := attrs, annotations := anns, init := some init, isInput := input, isOutput := !input, translate := tr }
    bases := bases, isDict := isDict }

theorem process_short {fs : List (Field V)} (h : Good fs) {bases : List (ClassDict V)} (hb : ∀ b ∈ bases, Neutral fs b)
    (input isDict : Bool) (tr : Option (String → String)) :
    ∃ attrs, AttrsOk fs input attrs ∧
      processClass (declare .short fs input tr bases isDict) input =
        .ok (made fs input tr bases isDict (fs.map fun f => (f.py, f.ty)) attrs
          { params := fs.map fun f => (f.py, f.dflt)
            body := fs.map fun f => propertyInit (!input && (declare .short fs input tr bases isDict).translate.isSome)
              (toProp f) }) := by
  have hps := short_properties h.toNamed hb input isDict tr
  have hpy : (fs.map toProp).map (·.py) = fs.map (·.py) := by rw [List.map_map]; rfl
  have hcl := cleanUp_eq (fs.map (·.py)) (declare .short fs input tr bases isDict)
    (fun n hn b hb' => by
      obtain ⟨f, hf, rfl⟩ := List.mem_map.1 hn
      exact (hb b hb').attrs f hf) (short_attrs_nodup h.toNamed)
  have hinit : ∀ t : Bool, initFn (fs.map toProp) t =
      .ok { params := fs.map fun f => (f.py, f.dflt), body := fs.map fun f => propertyInit t (toProp f) } := by
    intro t
    unfold initFn
    rw [if_pos (defaultsLast_of h.order (by intro e; cases e)), List.map_map, List.map_map]
    rfl
  refine ⟨(fs.map toProp).foldl (fun d p => setKey d p.py (.prop (createPyProperty p input)))
    ((declare .short fs input tr bases isDict).own.attrs.filter
      fun a => !(decide (a.1 ∈ fs.map (·.py)) && a.2.isMark)), ⟨?_, ?_⟩, ?_⟩
  · exact foldl_setKey_nodup _ _ _ _ (filter_nodup _ (short_attrs_nodup h.toNamed))
  · intro n
    rw [lookup_foldl_setKey (fs.map toProp) (fun p => p.py) (fun p => Attr.prop (createPyProperty p input)) _ n
      (by rw [hpy]; exact h.py)]
    rw [List.find?_map]
    have e : ((fun x : Prop_ V => x.py == n) ∘ toProp) = fun f : Field V => f.py == n := rfl
    rw [e]
    cases hf : fs.find? fun f => f.py == n with
    | some f => rfl
    | none =>
      simp only [Option.map_none]
      apply lookup_none
      intro hm
      obtain ⟨x, hx, e⟩ := List.mem_map.1 hm
      have hx' := (List.mem_filter.1 hx).1
      obtain ⟨g, hg, e2⟩ := List.mem_filterMap.1 hx'
      have hne := List.find?_eq_none.1 hf g hg
      cases hga : g.assigned with
      | none => rw [hga] at e2; cases e2
      | some a =>
        rw [hga] at e2
        simp only [Option.map_some, Option.some.injEq] at e2
        subst e2
        exact hne (by simpa using e)
  · unfold processClass
    simp only [hps, hpy, hcl]
    rw [foldl_setAttr (fs.map toProp) (fun p => p.py) (fun p => Attr.prop (createPyProperty p input))]
    unfold addInit
    have ht : ∀ attrs, ((mark ((declare .short fs input tr bases isDict).withAttrs
        ((declare .short fs input tr bases isDict).own.attrs.filter
          fun a => !(decide (a.1 ∈ fs.map (·.py)) && a.2.isMark))) input).withAttrs attrs).translate =
        (declare .short fs input tr bases isDict).translate := by intro attrs; rfl
    simp only [ht, hinit]
    cases input <;> rfl

theorem process_verbose (fs : List (Field V)) (bases : List (ClassDict V))
    (input isDict : Bool) (tr : Option (String → String)) :
    processClass (declare .verbose fs input tr bases isDict) input =
      .ok (made fs input tr bases isDict [] (declare .verbose fs input tr bases isDict).own.attrs
        { params := fs.map fun f => (f.py, f.dflt)
          body := fs.map fun f => { param := f.py, guarded := f.dflt.isNone, target := .set f.py } }) := by
  cases input <;> rfl

theorem foldl_fillSetter_id (xs : List (String × String × PyProp V)) (c : Class V)
    (h' : ∀ x ∈ xs, x.2.2.fset ≠ .empty) :
    xs.foldl fillSetter c = c := by
  induction xs with
  | nil => rfl
  | cons x xs ih =>
    rw [List.foldl_cons]
    have : fillSetter c x = c := by
      unfold fillSetter
      cases hf : x.2.2.fset with
      | empty => exact absurd hf (h' x (List.mem_cons_self ..))
      | _ => rfl
    rw [this]
    exact ih fun y hy => h' y (List.mem_cons_of_mem _ hy)

theorem bases_no_props {fs : List (Field V)} {bases : List (ClassDict V)} (hb : ∀ b ∈ bases, Neutral fs b) :
    bases.reverse.flatMap dictProperties = [] := by
  rw [List.flatMap_eq_nil_iff]
  intro b hb'
  exact (hb b (List.mem_reverse.1 hb')).props

theorem dictProperties_ok {fs : List (Field V)} {input : Bool} {d : ClassDict V} (h : AttrsOk fs input d.attrs)
    (x : String × String × PyProp V) :
    x ∈ dictProperties d ↔ ∃ f, fs.find? (fun f => f.py == x.1) = some f ∧ x = (f.py, f.pulumi, theProp input f) := by
  rw [mem_dictProperties h.nodup, h.lookup]
  constructor
  · rintro ⟨h1, h2⟩
    obtain ⟨f, hf, e⟩ := Option.map_eq_some_iff.1 h1
    simp only [Attr.prop.injEq] at e
    refine ⟨f, hf, ?_⟩
    have hpy : f.py = x.1 := by simpa using List.find?_some hf
    rw [← e] at h2
    have hn : f.pulumi = x.2.1 := Option.some.inj h2
    rw [hpy, hn, e]
  · rintro ⟨f, hf, e⟩
    rw [hf, e]
    exact ⟨rfl, rfl⟩

theorem foldl_fillSetter_all (xs : List (String × String × PyProp V)) (c : Class V) (h : ∀ x ∈ xs, x.2.2.fset = .empty) :
    xs.foldl fillSetter c = c.withAttrs (xs.foldl (fun d x => setKey d x.1 (.prop { x.2.2 with fset := .stored x.1 })) c.own.attrs) := by
  rw [← foldl_setAttr xs (fun x => x.1) (fun x => Attr.prop { x.2.2 with fset := .stored x.1 })]
  induction xs generalizing c with
  | nil => rfl
  | cons x xs ih =>
    rw [List.foldl_cons, List.foldl_cons]
    have : fillSetter c x = c.setAttr x.1 (.prop { x.2.2 with fset := .stored x.1 }) := by
      unfold fillSetter
      rw [h x (List.mem_cons_self ..)]
    rw [this]
    exact ih _ fun y hy => h y (List.mem_cons_of_mem _ hy)

theorem not_marked {fs : List (Field V)} {bases : List (ClassDict V)} (hb : ∀ b ∈ bases, Neutral fs b) (form : Form)
    (input isDict : Bool) (tr : Option (String → String)) :
    ((declare form fs input tr bases isDict).isInputType || (declare form fs input tr bases isDict).isOutputType) = false := by
  have h1 : bases.any (·.isInput) = false := by
    rw [List.any_eq_false]
    intro b hb'
    simp [(hb b hb').input]
  have h2 : bases.any (·.isOutput) = false := by
    rw [List.any_eq_false]
    intro b hb'
    simp [(hb b hb').output]
  unfold Class.isInputType Class.isOutputType Class.mro
  show (((declare form fs input tr bases isDict).own :: bases).any _ || ((declare form fs input tr bases isDict).own :: bases).any _) = _
  rw [List.any_cons, List.any_cons, h1, h2]
  cases form <;> rfl

/-- The line of `__init__` that stores a field. -/
def line (form : Form) (translated : Bool) (f : Field V) : Stmt :=
  match form with
  | .short => propertyInit translated (toProp f)
  | .verbose => { param := f.py, guarded := f.dflt.isNone, target := .set f.py }

/-- The annotations that are left on the class. -/
def anns (form : Form) (fs : List (Field V)) : List (String × Ty) :=
  match form with
  | .short => fs.map fun f => (f.py, f.ty)
  | .verbose => []

theorem inputType_made {fs : List (Field V)} (h : Good fs) {bases : List (ClassDict V)} (hb : ∀ b ∈ bases, Neutral fs b)
    (form : Form) (isDict : Bool) (tr : Option (String → String)) :
    ∃ attrs, AttrsOk fs true attrs ∧ inputType (declare form fs true tr bases isDict) =
      .ok (made fs true tr bases isDict (anns form fs) attrs
        { params := fs.map fun f => (f.py, f.dflt), body := fs.map (line form false) }) := by
  unfold inputType
  rw [not_marked hb]
  cases form with
  | short =>
    obtain ⟨attrs, ha, e⟩ := process_short h hb true isDict tr
    refine ⟨attrs, ha, ?_⟩
    rw [e]
    simp only [Bool.false_eq_true, if_false, Except.map]
    congr 1
    unfold fillSetters
    have hbases : ∀ i : Init V, (made fs true tr bases isDict (fs.map fun f => (f.py, f.ty)) attrs i).bases.reverse.flatMap
      dictProperties = [] := fun i => bases_no_props hb
    rw [hbases]
    simp only [List.foldl_nil]
    rw [foldl_fillSetter_id]
    · rfl
    · intro x hx
      obtain ⟨f, _, e⟩ := (dictProperties_ok (d := (made fs true tr bases isDict _ attrs _).own) ha x).1 hx
      rw [e]
      intro e'
      cases e'
  | verbose =>
    rw [process_verbose fs bases true isDict tr]
    simp only [Bool.false_eq_true, if_false, Except.map]
    unfold fillSetters
    have hbases : ∀ i a, (made fs true tr bases isDict [] a i).bases.reverse.flatMap
      dictProperties = [] := fun i a => bases_no_props hb
    rw [hbases]
    simp only [List.foldl_nil]
    have hdp : ∀ i, dictProperties (made fs true tr bases isDict [] (declare .verbose fs true tr bases isDict).own.attrs i).own =
        fs.map fun f => (f.py, f.pulumi, { getter f.py (some f.pulumi) (some f.ty) none with fset := .empty }) := by
      intro i
      unfold dictProperties
      show List.filterMap _ (fs.map _) = _
      rw [List.filterMap_map]
      induction fs with
      | nil => rfl
      | cons f fs ih => exact congrArg (_ :: ·) (by
          have : ∀ l : List (Field V), List.filterMap ((fun a : String × Attr V => match a.2 with
              | .prop p => p.pulumiName.map fun n => (a.1, n, p)
              | _ => none) ∘ fun f : Field V => (f.py, Attr.prop { getter f.py (some f.pulumi) (some f.ty) none with fset := Setter.empty })) l =
            l.map fun f => (f.py, f.pulumi, { getter f.py (some f.pulumi) (some f.ty) none with fset := .empty }) := by
            intro l
            induction l with
            | nil => rfl
            | cons g l ih => exact congrArg (_ :: ·) ih
          exact this fs)
    rw [hdp, foldl_fillSetter_all _ _ (by
      intro x hx
      obtain ⟨f, _, rfl⟩ := List.mem_map.1 hx
      rfl)]
    refine ⟨_, ⟨?_, ?_⟩, rfl⟩
    · refine foldl_setKey_nodup _ _ _ _ ?_
      show ((fs.map _).map _).Nodup
      rw [List.map_map]
      exact h.py
    · intro n
      rw [lookup_foldl_setKey _ (fun x : String × String × PyProp V => x.1)
        (fun x => Attr.prop { x.2.2 with fset := .stored x.1 }) _ n (by rw [List.map_map]; exact h.py)]
      rw [List.find?_map]
      have e : ((fun x : String × String × PyProp V => x.1 == n) ∘ fun f : Field V =>
        (f.py, f.pulumi, { getter f.py (some f.pulumi) (some f.ty) none with fset := .empty })) = fun f : Field V => f.py == n := rfl
      rw [e]
      cases hf : fs.find? fun f => f.py == n with
      | some f => rfl
      | none =>
        simp only [Option.map_none]
        show (fs.map fun f => (f.py, _)).lookup n = none
        rw [lookup_map_find fs (fun f => f.py), hf]
        rfl

theorem processed_output {fs : List (Field V)} (h : Good fs) {bases : List (ClassDict V)} (hb : ∀ b ∈ bases, Neutral fs b)
    (form : Form) (isDict : Bool) (tr : Option (String → String)) :
    ∃ attrs, AttrsOk fs false attrs ∧ processClass (declare form fs false tr bases isDict) false =
      .ok (made fs false tr bases isDict (anns form fs) attrs
        { params := fs.map fun f => (f.py, f.dflt)
          body := fs.map (line form (declare form fs false tr bases isDict).translate.isSome) }) := by
  cases form with
  | short =>
    obtain ⟨attrs, ha, e⟩ := process_short h hb false isDict tr
    exact ⟨attrs, ha, e⟩
  | verbose =>
    refine ⟨(declare .verbose fs false tr bases isDict).own.attrs, ⟨?_, ?_⟩, process_verbose fs bases false isDict tr⟩
    · show ((fs.map _).map _).Nodup
      rw [List.map_map]
      exact h.py
    · intro n
      show (fs.map fun f => (f.py, _)).lookup n = _
      rw [lookup_map_find fs (fun f => f.py)]
      rfl

end Pulumi.Types
