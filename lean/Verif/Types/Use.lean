import Verif.Types.Realise

/-! # What instances of a decorated class do -/

namespace Pulumi.Types

open Pulumi.Wire (setKey lookup_of_mem lookup_none lookup_mem)

variable {V : Type}

/-- `@pulumi.input_type` or `@pulumi.output_type`. -/
def decorate (input : Bool) (c : Class V) : Except Err (Class V) := if input then inputType c else outputType c

/-- The key under which an instance holds a property. -/
def slot (input : Bool) (tr : Option (String → String)) (f : Field V) : String :=
  match input, tr with
  | false, some g => g f.pulumi
  | _, _ => f.py

/-- What is needed of a decorated class. -/
structure Realises (c : Class V) (fs : List (Field V)) (input : Bool) (key : Field V → String) : Prop where
  isInput : c.isInputType = input
  isOutput : c.isOutputType = !input
  attr : ∀ f ∈ fs, c.findAttr f.py = some (.prop (theProp input f))
  props : ∀ x, x ∈ c.pyProperties ↔ ∃ f ∈ fs, x = (f.py, f.pulumi, theProp input f)
  nodup : (c.pyProperties.map (·.1)).Nodup
  name : ∀ f ∈ fs, c.translateName f.py = key f
  init : ∃ line : Field V → Stmt, c.init = some { params := fs.map fun f => (f.py, f.dflt), body := fs.map line } ∧
    ∀ f ∈ fs, (line f).param = f.py ∧ (line f).guarded = f.dflt.isNone ∧
      ∀ i v, c.storeArg i v (line f).target = .ok (c.put i (key f) v)

theorem mem_find {fs : List (Field V)} (h : Good fs) {f : Field V} (hf : f ∈ fs) :
    fs.find? (fun g => g.py == f.py) = some f := find_of_mem (key := fun g : Field V => g.py) h.py hf

theorem dictProperties_nodup {d : ClassDict V} (h : (d.attrs.map (·.1)).Nodup) : ((dictProperties d).map (·.1)).Nodup := by
  refine List.Nodup.sublist ?_ h
  unfold dictProperties
  generalize d.attrs = l
  induction l with
  | nil => exact List.Sublist.refl _
  | cons a l ih =>
    obtain ⟨n, a⟩ := a
    rw [List.filterMap_cons]
    split
    · exact List.Sublist.cons _ ih
    · rename_i b hb
      have : b.1 = n := by
        cases a with
        | prop p =>
          simp only at hb
          obtain ⟨m, _, e⟩ := Option.map_eq_some_iff.1 hb
          rw [← e]
        | marker _ _ => cases hb
        | value _ => cases hb
      rw [List.map_cons, List.map_cons, this]
      exact List.Sublist.cons_cons _ ih

section
variable {fs : List (Field V)} {bases : List (ClassDict V)} {input isDict : Bool} {tr : Option (String → String)}
  {ann : List (String × Ty)} {attrs : List (String × Attr V)} {ini : Init V}

theorem findAttr_made (h : Good fs) (hb : ∀ b ∈ bases, Neutral fs b) (ha : AttrsOk fs input attrs)
    {c : Class V} (hc : c.own.attrs = attrs) (hcb : c.bases = bases) {f : Field V} (hf : f ∈ fs) :
    c.findAttr f.py = some (.prop (theProp input f)) := by
  rw [findAttr_own (fun b hb' => (hb b (hcb ▸ hb')).attrs f hf), hc, ha.lookup, mem_find h hf]
  rfl

theorem props_made (h : Good fs) (hb : ∀ b ∈ bases, Neutral fs b) (ha : AttrsOk fs input attrs)
    {c : Class V} (hc : c.own.attrs = attrs) (hcb : c.bases = bases) :
    c.pyProperties = dictProperties c.own ∧
    (∀ x, x ∈ c.pyProperties ↔ ∃ f ∈ fs, x = (f.py, f.pulumi, theProp input f)) ∧ (c.pyProperties.map (·.1)).Nodup := by
  have e : c.pyProperties = dictProperties c.own := by
    unfold Class.pyProperties Class.mro
    rw [List.reverse_cons, List.flatMap_append, hcb, bases_no_props hb]
    simp
  refine ⟨e, ?_, ?_⟩
  · intro x
    rw [e, dictProperties_ok (hc ▸ ha)]
    constructor
    · rintro ⟨f, hf, hx⟩
      exact ⟨f, List.mem_of_find?_eq_some hf, hx⟩
    · rintro ⟨f, hf, rfl⟩
      exact ⟨f, mem_find h hf, rfl⟩
  · rw [e]
    exact dictProperties_nodup (hc ▸ ha.nodup)

theorem marks_made (hb : ∀ b ∈ bases, Neutral fs b) {c : Class V} (hi : c.own.isInput = input)
    (ho : c.own.isOutput = !input) (hcb : c.bases = bases) : c.isInputType = input ∧ c.isOutputType = !input := by
  have h1 : bases.any (·.isInput) = false := by
    rw [List.any_eq_false]
    intro b hb'
    simp [(hb b hb').input]
  have h2 : bases.any (·.isOutput) = false := by
    rw [List.any_eq_false]
    intro b hb'
    simp [(hb b hb').output]
  unfold Class.isInputType Class.isOutputType Class.mro
  rw [List.any_cons, List.any_cons, hcb, h1, h2, hi, ho]
  simp

end

theorem realises_input {fs : List (Field V)} (h : Good fs) {bases : List (ClassDict V)} (hb : ∀ b ∈ bases, Neutral fs b)
    (form : Form) (isDict : Bool) (tr : Option (String → String)) :
    ∃ c, inputType (declare form fs true tr bases isDict) = .ok c ∧ c.isDict = isDict ∧
      Realises c fs true (fun f => f.py) := by
  obtain ⟨attrs, ha, e⟩ := inputType_made h hb form isDict tr
  refine ⟨_, e, rfl, ?_⟩
  obtain ⟨m1, m2⟩ := marks_made (fs := fs) (c := made fs true tr bases isDict (anns form fs) attrs
        { params := fs.map fun f => (f.py, f.dflt), body := fs.map (line form false) }) (input := true) hb rfl rfl rfl
  obtain ⟨-, p2, p3⟩ := props_made (c := made fs true tr bases isDict (anns form fs) attrs
        { params := fs.map fun f => (f.py, f.dflt), body := fs.map (line form false) }) h hb ha rfl rfl
  have hname : ∀ n, (made fs true tr bases isDict (anns form fs) attrs
        { params := fs.map fun f => (f.py, f.dflt), body := fs.map (line form false) }).translateName n = n := by
    intro n
    unfold Class.translateName
    rw [m2]
    rfl
  refine ⟨m1, m2, fun f hf => findAttr_made h hb ha rfl rfl hf, p2, p3, fun f _ => hname _, line form false, rfl, ?_⟩
  intro f hf
  cases form with
  | short => exact ⟨rfl, rfl, fun i v => rfl⟩
  | verbose =>
    refine ⟨rfl, rfl, fun i v => ?_⟩
    show Class.set _ i f.py v = _
    unfold Class.set
    rw [if_neg (h.named f hf).1, m1, hname]
    rfl

theorem translate_table (c : Class V) (t : List (String × String)) :
    Class.translate { c with own := { c.own with table := some t } } = c.translate := rfl

theorem findSome_table {fs : List (Field V)} {bases : List (ClassDict V)} (hb : ∀ b ∈ bases, Neutral fs b) :
    bases.findSome? (·.table) = none := by
  rw [List.findSome?_eq_none_iff]
  intro b hb'
  exact (hb b hb').table

/-- The table of names of an output type. -/
theorem table_lookup {fs : List (Field V)} (h : Good fs) {c : Class V}
    (hp : ∀ x, x ∈ c.pyProperties ↔ ∃ f ∈ fs, x = (f.py, f.pulumi, theProp false f)) (hn : (c.pyProperties.map (·.1)).Nodup)
    {f : Field V} (hf : f ∈ fs) : nameOr ((nameTable c).getD []) f.py = f.pulumi := by
  have hl : ((c.pyProperties.filter fun x => x.1 != x.2.1).foldl (fun t x => setKey t x.1 x.2.1) []).lookup f.py =
      if f.py = f.pulumi then none else some f.pulumi := by
    have hn' : ((c.pyProperties.filter fun x => x.1 != x.2.1).map (·.1)).Nodup :=
      List.Nodup.sublist (List.Sublist.map _ List.filter_sublist) hn
    rw [lookup_foldl_setKey _ (fun x : String × String × PyProp V => x.1) (fun x => x.2.1) _ _ hn']
    by_cases e : f.py = f.pulumi
    · rw [if_pos e, find_none_of (key := fun x : String × String × PyProp V => x.1)]
      · rfl
      · intro x hx hxe
        obtain ⟨hx1, hx2⟩ := List.mem_filter.1 hx
        obtain ⟨g, hg, rfl⟩ := (hp x).1 hx1
        have hgf : g = f := by
          have := mem_find h hg
          rw [show g.py = f.py from hxe, mem_find h hf] at this
          exact (Option.some.inj this).symm
        subst hgf
        simp [e] at hx2
    · rw [if_neg e]
      have hm : (f.py, f.pulumi, theProp false f) ∈ c.pyProperties.filter fun x => x.1 != x.2.1 :=
        List.mem_filter.2 ⟨(hp _).2 ⟨f, hf, rfl⟩, by simpa using e⟩
      rw [find_of_mem (key := fun x : String × String × PyProp V => x.1) hn' hm]
  unfold nameTable
  simp only
  generalize ht : (c.pyProperties.filter fun x => x.1 != x.2.1).foldl (fun t x => setKey t x.1 x.2.1) [] = t at hl
  have : ((if t.isEmpty = true then none else some t).getD []) = t := by
    cases t <;> rfl
  rw [this]
  unfold nameOr
  rw [hl]
  by_cases e : f.py = f.pulumi
  · rw [if_pos e]
    exact e
  · rw [if_neg e]
    simp only
    rw [if_neg (h.named f hf).2]

theorem realises_output {fs : List (Field V)} (h : Good fs) {bases : List (ClassDict V)} (hb : ∀ b ∈ bases, Neutral fs b)
    (form : Form) (isDict : Bool) (tr : Option (String → String)) :
    ∃ c, outputType (declare form fs false tr bases isDict) = .ok c ∧ c.isDict = isDict ∧
      Realises c fs false (slot false (declare form fs false tr bases isDict).translate) := by
  obtain ⟨attrs, ha, e⟩ := processed_output h hb form isDict tr
  have htr0 : (declare form fs false tr bases isDict).translate =
      (made fs false tr bases isDict (anns form fs) attrs
        { params := fs.map fun f => (f.py, f.dflt)
          body := fs.map (line form (declare form fs false tr bases isDict).translate.isSome) }).translate := by
    cases form <;> rfl
  generalize htr : (declare form fs false tr bases isDict).translate = T at e htr0 ⊢
  generalize hc0 : made fs false tr bases isDict (anns form fs) attrs
        { params := fs.map fun f => (f.py, f.dflt), body := fs.map (line form T.isSome) } = c0 at e htr0
  refine ⟨addTable c0, ?_, ?_, ?_⟩
  · unfold outputType
    rw [not_marked hb, e]
    rfl
  · unfold addTable
    subst hc0
    split
    · split <;> rfl
    · rfl
  · have hself : (addTable c0).own.attrs = attrs ∧ (addTable c0).bases = bases ∧ (addTable c0).own.isInput = false ∧
        (addTable c0).own.isOutput = true ∧ (addTable c0).translate = T ∧ (addTable c0).init = c0.init ∧
        (addTable c0).isDict = c0.isDict := by
      have : addTable c0 = c0 ∨ ∃ t, addTable c0 = { c0 with own := { c0.own with table := some t } } := by
        unfold addTable
        split
        · split
          · exact .inr ⟨_, rfl⟩
          · exact .inl rfl
        · exact .inl rfl
      rcases this with e | ⟨t, e⟩
      · rw [e]
        rw [← htr0]
        subst hc0
        exact ⟨rfl, rfl, rfl, rfl, rfl, rfl, rfl⟩
      · rw [e, translate_table, ← htr0]
        subst hc0
        exact ⟨rfl, rfl, rfl, rfl, rfl, rfl, rfl⟩
    obtain ⟨s1, s2, s3, s4, s5, s6, -⟩ := hself
    obtain ⟨m1, m2⟩ := marks_made (input := false) hb s3 s4 s2
    obtain ⟨-, p2, p3⟩ := props_made h hb ha s1 s2
    obtain ⟨-, q2, q3⟩ := props_made (c := c0) h hb ha (by subst hc0; rfl) (by subst hc0; rfl)
    have hname : ∀ f ∈ fs, (addTable c0).translateName f.py = slot false T f := by
      intro f hf
      unfold Class.translateName
      rw [m2, s5]
      simp only [Bool.not_false, if_true]
      cases hT : T with
      | none => rfl
      | some g =>
        simp only [slot]
        congr 1
        have ht : (addTable c0).table = nameTable c0 := by
          unfold addTable
          rw [← htr0, hT]
          simp only [Option.isSome_some, if_true]
          cases hnt : nameTable c0 with
          | some t => rfl
          | none =>
            subst hc0
            simp only
            unfold Class.table Class.mro
            rw [List.findSome?_cons]
            exact findSome_table hb
        rw [ht]
        exact table_lookup h q2 q3 hf
    refine ⟨m1, m2, fun f hf => findAttr_made h hb ha s1 s2 hf, p2, p3, hname, line form T.isSome, ?_, ?_⟩
    · rw [s6]
      subst hc0
      rfl
    · intro f hf
      cases form with
      | short =>
        refine ⟨rfl, rfl, fun i v => ?_⟩
        cases hT : T with
        | none => rfl
        | some g =>
          show Class.storeArg _ i v (.translated f.pulumi) = _
          unfold Class.storeArg
          rw [s5, hT]
          rfl
      | verbose =>
        refine ⟨rfl, rfl, fun i v => ?_⟩
        show Class.set _ i f.py v = _
        unfold Class.set
        rw [if_neg (h.named f hf).1, m1, m2, hname f hf]
        rfl

/-! ## Instances -/

/-- The key of each property is its own. -/
def Apart (fs : List (Field V)) (key : Field V → String) : Prop := ∀ f ∈ fs, ∀ g ∈ fs, key f = key g → f = g

/-- The instance that `__init__` makes of the arguments `val`. -/
def filled (isDict : Bool) (key : Field V → String) (val : Field V → Val V) (i : Inst V) (fs : List (Field V)) : Inst V :=
  fs.foldl (fun i f => if f.dflt.isNone && (val f).isNone then i else Class.put { own := {}, isDict := isDict } i (key f) (val f)) i

theorem put_isDict (c : Class V) (i : Inst V) (k : String) (v : Val V) :
    c.put i k v = Class.put { own := {}, isDict := c.isDict } i k v := rfl

theorem store_put (c : Class V) (i : Inst V) (k : String) (v : Val V) (n : String) :
    (c.store (c.put i k v)).lookup n = if n = k then some v else (c.store i).lookup n := by
  unfold Class.store Class.put
  cases c.isDict
  · simp only [Bool.false_eq_true, if_false]
    rw [lookup_setKey]
  · simp only [if_true]
    rw [lookup_setKey]

section
variable {c : Class V} {fs : List (Field V)} {input : Bool} {key : Field V → String}

theorem Realises.typed (r : Realises c fs input key) : (c.isInputType || c.isOutputType) = true := by
  rw [r.isInput, r.isOutput]
  cases input <;> rfl

theorem Realises.read (r : Realises c fs input key) (h : Good fs) {f : Field V} (hf : f ∈ fs) (i : Inst V) :
    c.read i f.py = .ok (((c.store i).lookup (key f)).getD .none) := by
  unfold Class.read
  rw [r.attr f hf]
  show c.get i f.py = _
  unfold Class.get
  rw [if_neg (h.named f hf).1, r.typed, r.name f hf]
  rfl

theorem Realises.assign_input (r : Realises c fs true key) (h : Good fs) {f : Field V} (hf : f ∈ fs) (i : Inst V) (v : Val V) :
    c.assign i f.py v = .ok (c.put i (key f) v) := by
  unfold Class.assign
  rw [r.attr f hf]
  show c.set i f.py v = _
  unfold Class.set
  rw [if_neg (h.named f hf).1, r.typed, r.name f hf]
  rfl

theorem Realises.assign_output (r : Realises c fs false key) {f : Field V} (hf : f ∈ fs) (i : Inst V) (v : Val V) :
    c.assign i f.py v = .error .attributeError := by
  unfold Class.assign
  rw [r.attr f hf]
  rfl

theorem bindParams_ok (kwargs : Store V) (fs : List (Field V))
    (h : ∀ f ∈ fs, f.dflt.has = false → (kwargs.lookup f.py).isSome = true) :
    bindParams kwargs (fs.map fun f => (f.py, f.dflt)) = .ok (fs.map fun f => (f.py, argOf kwargs f)) := by
  induction fs with
  | nil => rfl
  | cons f fs ih =>
    rw [List.map_cons, bindParams, ih fun g hg => h g (List.mem_cons_of_mem _ hg)]
    have : bindParam kwargs (f.py, f.dflt) = .ok (f.py, argOf kwargs f) := by
      unfold bindParam argOf
      have hf := h f (List.mem_cons_self ..)
      cases hl : kwargs.lookup f.py with
      | some v => rfl
      | none =>
        cases hd : f.dflt with
        | given v => rfl
        | missing =>
          rw [hl, hd] at hf
          cases hf rfl
    rw [this]
    rfl

theorem bindParams_error (kwargs : Store V) (fs : List (Field V))
    (h : ¬ ∀ f ∈ fs, f.dflt.has = false → (kwargs.lookup f.py).isSome = true) :
    bindParams kwargs (fs.map fun f => (f.py, f.dflt)) = .error .typeError := by
  induction fs with
  | nil => exact absurd (by simp) h
  | cons f fs ih =>
    rw [List.map_cons, bindParams]
    cases hb : bindParam kwargs (f.py, f.dflt) with
    | error e =>
      unfold bindParam at hb
      split at hb
      · cases hb
      · cases hb
      · cases hb
        rfl
    | ok a =>
      rw [ih]
      · rfl
      · intro h'
        apply h
        intro g hg
        rcases List.mem_cons.1 hg with rfl | hg
        · intro hd
          unfold bindParam at hb
          cases hl : kwargs.lookup g.py with
          | some v => rfl
          | none =>
            rw [hl] at hb
            cases hd' : g.dflt with
            | missing => rw [hd'] at hb; cases hb
            | given v => rw [hd'] at hd; cases hd
        · exact h' g hg

theorem execAll_lines (r : Realises c fs input key) (h : Good fs) {line : Field V → Stmt} {args : Store V} {val : Field V → Val V}
    (hl : ∀ f ∈ fs, (line f).param = f.py ∧ (line f).guarded = f.dflt.isNone ∧
      ∀ i v, c.storeArg i v (line f).target = .ok (c.put i (key f) v))
    (ha : ∀ f ∈ fs, args.lookup f.py = some (val f)) :
    ∀ (gs : List (Field V)), (∀ g ∈ gs, g ∈ fs) → ∀ i, c.execAll args i (gs.map line) = .ok (filled c.isDict key val i gs) := by
  intro gs
  induction gs with
  | nil => intro _ i; rfl
  | cons g gs ih =>
    intro hg i
    rw [List.map_cons, Class.execAll]
    obtain ⟨h1, h2, h3⟩ := hl g (hg g (List.mem_cons_self ..))
    have : c.exec args i (line g) = .ok (if g.dflt.isNone && (val g).isNone then i else c.put i (key g) (val g)) := by
      unfold Class.exec
      rw [h1, ha g (hg g (List.mem_cons_self ..))]
      simp only [h2, h3]
      split <;> rfl
    rw [this]
    exact ih (fun x hx => hg x (List.mem_cons_of_mem _ hx)) _

theorem lookup_args {β : Type} (h : Good fs) (val : Field V → β) {f : Field V} (hf : f ∈ fs) :
    (fs.map fun f => (f.py, val f)).lookup f.py = some (val f) := by
  rw [lookup_map_find fs (fun f => f.py), mem_find h hf]
  rfl

theorem Realises.construct (r : Realises c fs input key) (h : Good fs) {kwargs : Store V} (ha : Acceptable fs kwargs) :
    c.construct kwargs = .ok (filled c.isDict key (argOf kwargs) { items := [], fields := [] } fs) := by
  obtain ⟨line, hi, hl⟩ := r.init
  unfold Class.construct
  rw [hi]
  simp only
  rw [if_pos, bindParams_ok kwargs fs ha.2]
  · exact execAll_lines r h hl (fun f hf => lookup_args h _ hf) fs (fun _ hg => hg) _
  · rw [List.all_eq_true]
    intro a haa
    obtain ⟨f, hf, e⟩ := ha.1 a haa
    rw [← e, lookup_args h (fun f => f.dflt) hf]
    rfl

theorem lookup_args_none {fs : List (Field V)} {n : String} {β : Type} (val : Field V → β) (h : ¬ ∃ f ∈ fs, f.py = n) :
    (fs.map fun f => (f.py, val f)).lookup n = none := by
  rw [lookup_map_find fs (fun f => f.py), find_none_of]
  · rfl
  · intro f hf e
    exact h ⟨f, hf, e⟩

theorem Realises.construct_error (r : Realises c fs input key) {kwargs : Store V} (ha : ¬ Acceptable fs kwargs) :
    c.construct kwargs = .error .typeError := by
  obtain ⟨line, hi, hl⟩ := r.init
  unfold Class.construct
  rw [hi]
  simp only
  by_cases h1 : ∀ a ∈ kwargs, ∃ f ∈ fs, f.py = a.1
  · split
    · rw [bindParams_error kwargs fs (fun h2 => ha ⟨h1, h2⟩)]
      rfl
    · rfl
  · rw [if_neg]
    intro hall
    apply h1
    intro a haa
    have := List.all_eq_true.1 hall a haa
    by_cases hex : ∃ f ∈ fs, f.py = a.1
    · exact hex
    · rw [lookup_args_none _ hex] at this
      cases this

open Classical in
theorem store_filled {d : Bool} (hk : Apart fs key) (val : Field V → Val V) {c : Class V} (hc : c.isDict = d) :
    ∀ (gs : List (Field V)) (i : Inst V), (∀ g ∈ gs, g ∈ fs) → ∀ f ∈ fs,
      (c.store (filled d key val i gs)).lookup (key f) =
        if f ∈ gs ∧ ¬ (f.dflt.isNone && (val f).isNone) = true then some (val f) else (c.store i).lookup (key f) := by
  subst hc
  intro gs
  induction gs with
  | nil => intro i _ f _; simp [filled]
  | cons g gs ih =>
    intro i hg f hf
    have hgf : g ∈ fs := hg g (List.mem_cons_self ..)
    have ih' := fun j => ih j (fun x hx => hg x (List.mem_cons_of_mem _ hx)) f hf
    show (c.store (filled c.isDict key val (if g.dflt.isNone && (val g).isNone then i else c.put i (key g) (val g)) gs)).lookup (key f) = _
    rw [ih']
    by_cases hm : f ∈ gs ∧ ¬ (f.dflt.isNone && (val f).isNone) = true
    · rw [if_pos hm, if_pos ⟨List.mem_cons_of_mem _ hm.1, hm.2⟩]
    · rw [if_neg hm]
      by_cases hgd : (g.dflt.isNone && (val g).isNone) = true
      · rw [if_pos hgd]
        rw [if_neg]
        rintro ⟨h1, h2⟩
        rcases List.mem_cons.1 h1 with rfl | h1
        · exact h2 hgd
        · exact hm ⟨h1, h2⟩
      · rw [if_neg hgd, store_put]
        by_cases hfg : f = g
        · subst hfg
          rw [if_pos rfl, if_pos ⟨List.mem_cons_self .., hgd⟩]
        · rw [if_neg (fun e => hfg (hk f hf g hgf e)), if_neg]
          rintro ⟨h1, h2⟩
          rcases List.mem_cons.1 h1 with h1 | h1
          · exact hfg h1
          · exact hm ⟨h1, h2⟩

theorem store_filled_none (val : Field V → Val V) {c : Class V} {d : Bool} (hc : c.isDict = d) {n : String} :
    ∀ (gs : List (Field V)) (i : Inst V), (∀ g ∈ gs, key g ≠ n) →
      (c.store (filled d key val i gs)).lookup n = (c.store i).lookup n := by
  subst hc
  intro gs
  induction gs with
  | nil => intro i _; rfl
  | cons g gs ih =>
    intro i hg
    show (c.store (filled c.isDict key val (if g.dflt.isNone && (val g).isNone then i else c.put i (key g) (val g)) gs)).lookup n = _
    rw [ih _ fun x hx => hg x (List.mem_cons_of_mem _ hx)]
    by_cases hgd : (g.dflt.isNone && (val g).isNone) = true
    · rw [if_pos hgd]
    · rw [if_neg hgd, store_put, if_neg]
      exact fun e => hg g (List.mem_cons_self ..) e.symm

theorem Val.isNone_iff (v : Val V) : v.isNone = true ↔ v = .none := by
  cases v <;> simp [Val.isNone]

/-- What a property of a new instance reads as. -/
theorem Realises.read_filled (r : Realises c fs input key) (h : Good fs) (hk : Apart fs key) (val : Field V → Val V) {f : Field V}
    (hf : f ∈ fs) : c.read (filled c.isDict key val { items := [], fields := [] } fs) f.py = .ok (val f) := by
  rw [r.read h hf, store_filled hk val rfl fs _ (fun _ hg => hg) f hf]
  by_cases hg : (f.dflt.isNone && (val f).isNone) = true
  · rw [if_neg (fun h' => h'.2 hg)]
    have : (c.store { items := [], fields := [] }).lookup (key f) = none := by
      unfold Class.store
      cases c.isDict <;> rfl
    rw [this]
    simp only [Bool.and_eq_true] at hg
    rw [(Val.isNone_iff _).1 hg.2]
    rfl
  · rw [if_pos ⟨hf, hg⟩]
    rfl

open Classical in
theorem entries_ok (r : Realises c fs true key) (h : Good fs) {val : Field V → Val V} {i : Inst V}
    (hv : ∀ f ∈ fs, c.read i f.py = .ok (val f)) :
    ∀ (xs : List (String × String × PyProp V)) (acc : Store V), (∀ x ∈ xs, ∃ f ∈ fs, x = (f.py, f.pulumi, theProp true f)) →
      ∃ d, c.entries i xs acc = .ok d ∧ ∀ k, d.lookup k =
        match fs.find? (fun f => f.pulumi == k) with
        | some f => if (∃ x ∈ xs, x.1 = f.py) ∧ val f ≠ .none then some (val f) else acc.lookup k
        | none => acc.lookup k := by
  intro xs
  induction xs with
  | nil =>
    intro acc _
    refine ⟨acc, rfl, fun k => ?_⟩
    cases fs.find? (fun f => f.pulumi == k) with
    | none => rfl
    | some f => simp
  | cons x xs ih =>
    intro acc hx
    obtain ⟨g, hg, rfl⟩ := hx x (List.mem_cons_self ..)
    have hcall : c.call i (theProp true g).fget = .ok (val g) := by
      have := hv g hg
      unfold Class.read at this
      rw [r.attr g hg] at this
      exact this
    obtain ⟨d, e, hd⟩ := ih (if (val g).isNone then acc else setKey acc g.pulumi (val g))
      fun x hx' => hx x (List.mem_cons_of_mem _ hx')
    refine ⟨d, ?_, ?_⟩
    · unfold Class.entries
      rw [hcall]
      exact e
    · intro k
      rw [hd k]
      have hacc : (if (val g).isNone = true then acc else setKey acc g.pulumi (val g)).lookup k =
          if val g ≠ .none ∧ k = g.pulumi then some (val g) else acc.lookup k := by
        by_cases hn : (val g).isNone = true
        · rw [if_pos hn, if_neg (fun h' => h'.1 ((Val.isNone_iff _).1 hn))]
        · rw [if_neg hn, lookup_setKey]
          have hn' : val g ≠ .none := fun e => hn ((Val.isNone_iff _).2 e)
          by_cases hk : k = g.pulumi
          · rw [if_pos hk, if_pos ⟨hn', hk⟩]
          · rw [if_neg hk, if_neg (fun h' => hk h'.2)]
      rw [hacc]
      cases hf : fs.find? (fun f => f.pulumi == k) with
      | none =>
        have := List.find?_eq_none.1 hf g hg
        simp only
        rw [if_neg]
        rintro ⟨_, rfl⟩
        simp at this
      | some f =>
        have hfm := List.mem_of_find?_eq_some hf
        have hfk : f.pulumi = k := by simpa using List.find?_some hf
        simp only
        by_cases hgk : k = g.pulumi
        · have : f = g := by
            have := find_of_mem (key := fun f : Field V => f.pulumi) h.pulumi hg
            rw [← hgk, hf] at this
            exact Option.some.inj this
          subst this
          by_cases hn : val f = .none
          · rw [if_neg (fun h' => h'.2 hn), if_neg (fun h' => h'.1 hn), if_neg (fun h' => h'.2 hn)]
          · rw [if_pos (show val f ≠ .none ∧ k = f.pulumi from ⟨hn, hgk⟩),
              if_pos (show (∃ x ∈ (f.py, f.pulumi, theProp true f) :: xs, x.1 = f.py) ∧ val f ≠ .none from
                ⟨⟨_, List.mem_cons_self .., rfl⟩, hn⟩)]
            split <;> rfl
        · rw [if_neg (fun h' : val g ≠ .none ∧ k = g.pulumi => hgk h'.2)]
          have hfg : f.py ≠ g.py := by
            intro e
            have h1 := mem_find h hfm
            rw [e, mem_find h hg] at h1
            have := Option.some.inj h1
            subst this
            exact hgk hfk.symm
          by_cases hex : (∃ x ∈ xs, x.1 = f.py) ∧ val f ≠ .none
          · rw [if_pos hex]
            obtain ⟨⟨x, hx1, hx2⟩, hn⟩ := hex
            rw [if_pos ⟨⟨x, List.mem_cons_of_mem _ hx1, hx2⟩, hn⟩]
          · rw [if_neg hex, if_neg]
            rintro ⟨⟨x, hx1, hx2⟩, hn⟩
            rcases List.mem_cons.1 hx1 with rfl | hx1
            · exact hfg hx2.symm
            · exact hex ⟨⟨x, hx1, hx2⟩, hn⟩

theorem Realises.toDict (r : Realises c fs true key) (h : Good fs) {val : Field V → Val V} {i : Inst V}
    (hv : ∀ f ∈ fs, c.read i f.py = .ok (val f)) : ∃ d, c.toDict i = .ok d ∧ Sent d fs val := by
  obtain ⟨d, e, hd⟩ := entries_ok r h hv c.pyProperties [] fun x hx => (r.props x).1 hx
  refine ⟨d, ?_, ?_⟩
  · unfold Class.toDict
    rw [r.isInput]
    exact e
  · intro k v
    rw [hd k]
    constructor
    · intro hl
      cases hf : fs.find? (fun f => f.pulumi == k) with
      | none => rw [hf] at hl; cases hl
      | some f =>
        rw [hf] at hl
        have hfk : f.pulumi = k := by simpa using List.find?_some hf
        by_cases hex : (∃ x ∈ c.pyProperties, x.1 = f.py) ∧ val f ≠ .none
        · simp only at hl
          rw [if_pos hex] at hl
          have := Option.some.inj hl
          exact ⟨this ▸ hex.2, f, List.mem_of_find?_eq_some hf, hfk, this⟩
        · simp only at hl
          rw [if_neg hex] at hl
          cases hl
    · rintro ⟨hn, f, hf, rfl, rfl⟩
      rw [find_of_mem (key := fun f : Field V => f.pulumi) h.pulumi hf]
      simp only
      rw [if_pos ⟨⟨_, (r.props _).2 ⟨f, hf, rfl⟩, rfl⟩, hn⟩]

theorem mem_outputArgs (r : Realises c fs false key) (output : Store V) (n : String) :
    (outputArgs c.pyProperties output).lookup n =
      (fs.find? fun f => f.py == n).map fun f => (output.lookup f.pulumi).getD .none := by
  unfold outputArgs
  rw [lookup_foldl_setKey _ (fun x : String × String × PyProp V => x.1) (fun x => (output.lookup x.2.1).getD .none) _ _ r.nodup]
  cases hf : fs.find? fun f => f.py == n with
  | some f =>
    have hfm := List.mem_of_find?_eq_some hf
    have hfn : f.py = n := by simpa using List.find?_some hf
    have : c.pyProperties.find? (fun x => x.1 == n) = some (f.py, f.pulumi, theProp false f) := by
      rw [← hfn]
      exact find_of_mem (key := fun x : String × String × PyProp V => x.1) r.nodup ((r.props _).2 ⟨f, hfm, rfl⟩)
    rw [this]
    rfl
  | none =>
    rw [find_none_of (key := fun x : String × String × PyProp V => x.1)]
    · rfl
    · intro x hx e
      obtain ⟨f, hfm, rfl⟩ := (r.props x).1 hx
      exact List.find?_eq_none.1 hf f hfm (by simpa using e)

theorem lookup_isSome_mem {α : Type} {l : List (String × α)} {a : String × α} (h : a ∈ l) : (l.lookup a.1).isSome = true := by
  induction l with
  | nil => cases h
  | cons b l ih =>
    obtain ⟨k, v⟩ := b
    rw [List.lookup_cons]
    by_cases e : a.1 = k
    · subst e; simp
    · have : (a.1 == k) = false := by simpa using e
      rw [this]
      rcases List.mem_cons.1 h with rfl | h
      · exact absurd rfl e
      · exact ih h

/-- What `output_type_from_dict` makes. -/
theorem Realises.fromDict (r : Realises c fs false key) (h : Good fs) (output : Store V) :
    c.fromDict output = .ok (filled c.isDict key (fun f => (output.lookup f.pulumi).getD .none)
      { items := [], fields := [] } fs) := by
  have hl := mem_outputArgs r output
  have hacc : Acceptable fs (outputArgs c.pyProperties output) := by
    constructor
    · intro a ha
      have := lookup_isSome_mem ha
      rw [hl, Option.isSome_map] at this
      obtain ⟨f, hf⟩ := Option.isSome_iff_exists.1 this
      exact ⟨f, List.mem_of_find?_eq_some hf, by simpa using List.find?_some hf⟩
    · intro f hf _
      rw [hl, mem_find h hf]
      rfl
  unfold Class.fromDict
  rw [r.isOutput]
  simp only [Bool.not_false, if_true]
  rw [r.construct h hacc]
  congr 1
  unfold filled
  have hv : ∀ f ∈ fs, argOf (outputArgs c.pyProperties output) f = (output.lookup f.pulumi).getD .none := by
    intro f hf
    unfold argOf
    rw [hl, mem_find h hf]
    rfl
  have : ∀ (gs : List (Field V)) (i : Inst V), (∀ g ∈ gs, g ∈ fs) →
      gs.foldl (fun i f => if f.dflt.isNone && (argOf (outputArgs c.pyProperties output) f).isNone then i
        else Class.put { own := {}, isDict := c.isDict } i (key f) (argOf (outputArgs c.pyProperties output) f)) i =
      gs.foldl (fun i f => if f.dflt.isNone && ((output.lookup f.pulumi).getD .none).isNone then i
        else Class.put { own := {}, isDict := c.isDict } i (key f) ((output.lookup f.pulumi).getD .none)) i := by
    intro gs
    induction gs with
    | nil => intro i _; rfl
    | cons g gs ih =>
      intro i hg
      rw [List.foldl_cons, List.foldl_cons, hv g (hg g (List.mem_cons_self ..))]
      exact ih _ fun x hx => hg x (List.mem_cons_of_mem _ hx)
  exact this fs _ fun _ hg => hg

end

end Pulumi.Types
