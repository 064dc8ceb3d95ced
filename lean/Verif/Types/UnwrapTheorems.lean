import Verif.Types.Unwrap

/-! # Theorems on type annotations -/

namespace Pulumi.Types

/-! ## Specification -/

/-- The documented ways to declare a property of type `T` (_types.py:966-968). -/
inductive Wrapper
  | plain | optional | input | inputType | optionalInput | optionalInputType | inputInputType | optionalInputInputType

/-- What is written for it. -/
def Wrapper.apply : Wrapper → Ty → Ty
  | .plain, t => t
  | .optional, t => optionalOf t
  | .input, t => inputOf t
  | .inputType, t => inputTypeOf t
  | .optionalInput, t => optionalOf (inputOf t)
  | .optionalInputType, t => optionalOf (inputTypeOf t)
  | .inputInputType, t => inputOf (inputTypeOf t)
  | .optionalInputInputType, t => optionalOf (inputOf (inputTypeOf t))

/-- A type that is neither `None`, nor a union, nor itself an `Output[...]`. -/
inductive Single : Ty → Prop
  | any : Single .any
  | str : Single .str
  | dictCls : Single .dictCls
  | outputCls : Single .outputCls
  | cls (n i) : Single (.cls n i)
  | gen {o} (as) : o ≠ .output → Single (.gen o as)

/-! ## Lemmas -/

mutual
theorem beq_iff : ∀ a b : Ty, a.beq b = true ↔ a = b
  | .noneType, b => by cases b <;> simp [Ty.beq]
  | .any, b => by cases b <;> simp [Ty.beq]
  | .str, b => by cases b <;> simp [Ty.beq]
  | .dictCls, b => by cases b <;> simp [Ty.beq]
  | .outputCls, b => by cases b <;> simp [Ty.beq]
  | .cls n i, b => by cases b <;> simp [Ty.beq]
  | .gen o as, b => by
    cases b with
    | gen p bs => simp [Ty.beq, beqList_iff as bs]
    | _ => simp [Ty.beq]
  | .union as, b => by
    cases b with
    | union bs => simp [Ty.beq, beqList_iff as bs]
    | _ => simp [Ty.beq]
theorem beqList_iff : ∀ as bs : List Ty, beqList as bs = true ↔ as = bs
  | [], bs => by cases bs <;> simp [beqList]
  | a :: as, bs => by
    cases bs with
    | nil => simp [beqList]
    | cons b bs => simp [beqList, beq_iff a b, beqList_iff as bs]
end

theorem beq_false {a b : Ty} (h : a ≠ b) : a.beq b = false := by
  cases hb : a.beq b with
  | false => rfl
  | true => exact absurd ((beq_iff a b).1 hb) h

theorem beq_self (a : Ty) : a.beq a = true := (beq_iff a a).2 rfl

theorem flatten_single {t : Ty} (h : Single t) (ts : List Ty) : flatten (t :: ts) = t :: flatten ts := by
  cases h <;> rfl

theorem dedup_cons_new {t : Ty} {ts : List Ty} (h : t ∉ dedup ts) : dedup (t :: ts) = t :: dedup ts := by
  simp only [dedup]
  congr 1
  rw [List.filter_eq_self]
  intro u hu
  rw [beq_false]
  · rfl
  · rintro rfl
    exact h hu

theorem dedup_nodup {ts : List Ty} (h : ts.Nodup) : dedup ts = ts := by
  induction ts with
  | nil => rfl
  | cons t ts ih =>
    rw [List.nodup_cons] at h
    rw [dedup_cons_new, ih h.2]
    rw [ih h.2]
    exact h.1

theorem mkUnion_nodup {a b : Ty} {ts us : List Ty} (hf : flatten us = a :: b :: ts) (h : (a :: b :: ts).Nodup) :
    mkUnion us = .union (a :: b :: ts) := by
  unfold mkUnion
  rw [hf, dedup_nodup h]

theorem single_ne_none {t : Ty} (h : Single t) : t ≠ .noneType := by cases h <;> simp

theorem single_ne_output {t : Ty} (h : Single t) (u : Ty) : t ≠ .gen .output [u] := by
  cases h <;> simp
  intro ho
  exact absurd ho (by assumption)

theorem ne_await (t : Ty) : t ≠ .gen .awaitable [t] := by
  intro h
  have := congrArg sizeOf h
  simp at this
  omega

theorem ne_await_pair (t u : Ty) : t ≠ .gen .awaitable [.union [t, u]] := by
  intro h
  have := congrArg sizeOf h
  simp at this
  omega

/-- `Mapping[str, Any]` -/
abbrev aMapping : Ty := .gen .mapping [.str, .any]

theorem optional_eq {t : Ty} (h : Single t) : optionalOf t = .union [t, .noneType] :=
  mkUnion_nodup (by rw [flatten_single h]; rfl) (by simp [single_ne_none h])

theorem input_eq {t : Ty} (h : Single t) : inputOf t = .union [t, .gen .awaitable [t], outputOf t] :=
  mkUnion_nodup (by rw [flatten_single h]; rfl) (by simp [ne_await t, single_ne_output h, outputOf])

theorem inputType_eq {t : Ty} (h : Single t) (hm : t ≠ aMapping) : inputTypeOf t = .union [t, aMapping] :=
  mkUnion_nodup (by rw [flatten_single h]; rfl) (by simp [hm])

theorem inputType_self : inputTypeOf aMapping = aMapping := by rfl

theorem optionalInput_eq {t : Ty} (h : Single t) :
    optionalOf (inputOf t) = .union [t, .gen .awaitable [t], outputOf t, .noneType] := by
  rw [input_eq h]
  exact mkUnion_nodup rfl (by simp [ne_await t, single_ne_output h, single_ne_none h, outputOf])

theorem optionalInputType_eq {t : Ty} (h : Single t) (hm : t ≠ aMapping) :
    optionalOf (inputTypeOf t) = .union [t, aMapping, .noneType] := by
  rw [inputType_eq h hm]
  exact mkUnion_nodup rfl (by simp [hm, single_ne_none h])

theorem inputInputType_eq {t : Ty} (h : Single t) (hm : t ≠ aMapping) :
    inputOf (inputTypeOf t) = .union [t, aMapping, .gen .awaitable [.union [t, aMapping]], outputOf (.union [t, aMapping])] := by
  rw [inputType_eq h hm]
  exact mkUnion_nodup rfl (by simp [hm, ne_await_pair t, single_ne_output h, outputOf])

theorem optionalInputInputType_eq {t : Ty} (h : Single t) (hm : t ≠ aMapping) :
    optionalOf (inputOf (inputTypeOf t)) =
      .union [t, aMapping, .gen .awaitable [.union [t, aMapping]], outputOf (.union [t, aMapping]), .noneType] := by
  rw [inputInputType_eq h hm]
  exact mkUnion_nodup rfl (by simp [hm, ne_await_pair t, single_ne_output h, single_ne_none h, outputOf])

theorem unwrapInner_single {t : Ty} (h : Single t) : unwrapInner t = .ok t := by
  cases h <;> rfl

theorem unwrapOutput_single {t : Ty} (h : Single t) : unwrapOutput t = .ok t := by
  cases h with
  | gen as ho =>
    rename_i o
    cases o <;> first | rfl | exact absurd rfl ho
  | _ => rfl

theorem unwrapType_union (as : List Ty) : unwrapType (.union as) = unwrapInner (.union as) := rfl

theorem looksInputType_mapping (t : Ty) : looksInputType t aMapping = true := by
  simp [looksInputType, getOrigin]

theorem looksInput_yes (t u : Ty) : looksInput (.gen .awaitable [t]) (outputOf u) = true := by
  simp [looksInput, getOrigin, outputOf]

theorem unwrapInner_wrapped (w : Wrapper) {t : Ty} (h : Single t) :
    unwrapInner (w.apply t) = .ok t ∧ ((w.apply t = t) ∨ ∃ as, w.apply t = .union as) := by
  have plain := unwrapInner_single h
  have optional : unwrapInner (.union [t, .noneType]) = .ok t := by
    have hl : looksInputType t .noneType = false := by simp [looksInputType, getOrigin, isDictCls]
    have ho : isOptional (.union [t, .noneType]) = true := by simp [isOptional, anyOptional]
    simp only [unwrapInner, unwrapUnion, hl, unwrapOptional, ho, getArgs, isNoneType]
    rfl
  have input : unwrapInner (.union [t, .gen .awaitable [t], outputOf t]) = .ok t := by
    simp only [unwrapInner, unwrapUnion, looksInput_yes, if_true]
  have optionalInput : unwrapInner (.union [t, .gen .awaitable [t], outputOf t, .noneType]) = .ok t := by
    simp only [unwrapInner, unwrapUnion, looksInput_yes, isNoneType, Bool.and_self, if_true]
  by_cases hm : t = aMapping
  · subst hm
    cases w
    · exact ⟨plain, .inl rfl⟩
    · exact ⟨optional, .inr ⟨_, rfl⟩⟩
    · exact ⟨input, .inr ⟨_, rfl⟩⟩
    · exact ⟨plain, .inl rfl⟩
    · exact ⟨optionalInput, .inr ⟨_, rfl⟩⟩
    · exact ⟨optional, .inr ⟨_, rfl⟩⟩
    · exact ⟨input, .inr ⟨_, rfl⟩⟩
    · exact ⟨optionalInput, .inr ⟨_, rfl⟩⟩
  · have hl := looksInputType_mapping t
    have hn : ∀ c, looksInput aMapping c = false := fun c => by simp [looksInput, getOrigin]
    cases w
    · exact ⟨plain, .inl rfl⟩
    · exact ⟨(congrArg unwrapInner (optional_eq h)).trans optional, .inr ⟨_, optional_eq h⟩⟩
    · exact ⟨(congrArg unwrapInner (input_eq h)).trans input, .inr ⟨_, input_eq h⟩⟩
    · refine ⟨?_, .inr ⟨_, inputType_eq h hm⟩⟩
      show unwrapInner (inputTypeOf t) = _
      rw [inputType_eq h hm]
      simp only [unwrapInner, unwrapUnion, hl, if_true]
    · exact ⟨(congrArg unwrapInner (optionalInput_eq h)).trans optionalInput, .inr ⟨_, optionalInput_eq h⟩⟩
    · refine ⟨?_, .inr ⟨_, optionalInputType_eq h hm⟩⟩
      show unwrapInner (optionalOf (inputTypeOf t)) = _
      rw [optionalInputType_eq h hm]
      simp only [unwrapInner, unwrapUnion, hl, hn, isNoneType]
      rfl
    · refine ⟨?_, .inr ⟨_, inputInputType_eq h hm⟩⟩
      show unwrapInner (inputOf (inputTypeOf t)) = _
      rw [inputInputType_eq h hm]
      simp only [unwrapInner, unwrapUnion, hl, hn, looksInput_yes]
      rfl
    · refine ⟨?_, .inr ⟨_, optionalInputInputType_eq h hm⟩⟩
      show unwrapInner (optionalOf (inputOf (inputTypeOf t))) = _
      rw [optionalInputInputType_eq h hm]
      simp only [unwrapInner, unwrapUnion, hl, looksInput_yes, isNoneType]
      rfl

/-! ## C110 -/

/-- **C110.** Declared in any of the documented ways, with or without `Output` around it, a property has the type `T`. -/
theorem wrappers_unwrapped_partial (w : Wrapper) {t : Ty} (h : Single t) :
    unwrapType (w.apply t) = .ok t ∧ unwrapType (outputOf (w.apply t)) = .ok t := by
  obtain ⟨h1, h2⟩ := unwrapInner_wrapped w h
  refine ⟨?_, ?_⟩
  · rcases h2 with e | ⟨as, e⟩
    · rw [e]
      unfold unwrapType
      rw [unwrapOutput_single h]
      exact unwrapInner_single h
    · rw [e] at h1 ⊢
      exact h1
  · exact h1

/-- Non-trivial instance: `Optional[Input[InputType[NestedArgs]]]`, a union of five. -/
example : Single (.cls "NestedArgs" true) ∧
    Wrapper.optionalInputInputType.apply (.cls "NestedArgs" true) = .union [.cls "NestedArgs" true, aMapping,
      .gen .awaitable [.union [.cls "NestedArgs" true, aMapping]], outputOf (.union [.cls "NestedArgs" true, aMapping]),
      .noneType] := ⟨.cls _ _, by rfl⟩

/-- **C110.** Fails for `Input[Optional[T]]`: nothing is unwrapped, whatever the type, so that the keys of a dict are not
translated and a list is refused. -/
theorem input_optional_kept {t : Ty} (h : Single t) :
    ∃ as, unwrapType (inputOf (optionalOf t)) = .ok (.union as) ∧ use (.union as) = .other := by
  have e : inputOf (optionalOf t) = .union [t, .noneType, .gen .awaitable [.union [t, .noneType]],
      outputOf (.union [t, .noneType])] := by
    rw [optional_eq h]
    exact mkUnion_nodup rfl (by simp [single_ne_none h, ne_await_pair t, single_ne_output h, outputOf])
  refine ⟨[t, .noneType, .gen .awaitable [.union [t, .noneType]], outputOf (.union [t, .noneType])], ?_, rfl⟩
  rw [e]
  have hl : looksInputType t .noneType = false := by simp [looksInputType, getOrigin, isDictCls]
  have hn : ∀ c, looksInput .noneType c = false := fun c => by simp [looksInput, getOrigin]
  rw [unwrapType_union]
  simp only [unwrapInner, unwrapUnion, hl, hn, Bool.false_and, Bool.false_eq_true, if_false, unwrapOptional, getArgs,
    ite_self]

/-- **C110.** Fails for `Optional[Output[T]]`: the type is `Output[T]`. -/
theorem optional_output_kept (t : Ty) : unwrapType (optionalOf (outputOf t)) = .ok (outputOf t) := by
  have e : optionalOf (outputOf t) = .union [outputOf t, .noneType] :=
    mkUnion_nodup (by rfl) (by simp [outputOf])
  rw [e]
  have hl : looksInputType (outputOf t) .noneType = false := by simp [looksInputType, getOrigin, isDictCls]
  have ho : isOptional (.union [outputOf t, .noneType]) = true := by simp [isOptional, anyOptional]
  rw [unwrapType_union]
  simp only [unwrapInner, unwrapUnion, hl, unwrapOptional, ho, getArgs, isNoneType]
  rfl

/-- **C110.** Fails for `Union[None, T]`, which is the same type as `Optional[T]`: an `AssertionError`. -/
theorem none_first_raises {t : Ty} (h : Single t) (hd : getOrigin t ≠ some .dict) (hm : getOrigin t ≠ some .mapping) :
    unwrapType (mkUnion [.noneType, t]) = .error .assertion := by
  have e : mkUnion [.noneType, t] = .union [.noneType, t] :=
    mkUnion_nodup (by simp only [flatten]; rw [flatten_single h]; rfl) (by simp [(single_ne_none h).symm])
  rw [e]
  have hl : looksInputType .noneType t = false := by simp [looksInputType, isInputCls, hd, hm]
  have ho : isOptional (.union [.noneType, t]) = true := by simp [isOptional, anyOptional]
  have hn : isNoneType t = false := by cases h <;> rfl
  rw [unwrapType_union]
  simp only [unwrapInner, unwrapUnion, hl, unwrapOptional, ho, getArgs, hn]
  rfl

/-- **C110.** Fails for a union with a dict: `Union[T, Dict[str, V]]` is taken for `T`, so that for a `T` that is not a
class nor a dict a value that is a dict has an unexpected type. -/
theorem dict_union_lost {t : Ty} (h : Single t) (v : Ty) (hne : t ≠ .gen .dict [.str, v]) :
    unwrapType (mkUnion [t, .gen .dict [.str, v]]) = .ok t := by
  have e : mkUnion [t, .gen .dict [.str, v]] = .union [t, .gen .dict [.str, v]] :=
    mkUnion_nodup (by rw [flatten_single h]; rfl) (by simp [hne])
  rw [e]
  have hl : looksInputType t (.gen .dict [.str, v]) = true := by simp [looksInputType, getOrigin]
  rw [unwrapType_union]
  simp only [unwrapInner, unwrapUnion, hl, if_true]

/-- **C110.** A union with `dict` itself is taken for the input type that is its other member; with anything else it
stays a union. -/
theorem bare_dict_union {t : Ty} (h : Single t) (hne : t ≠ .dictCls) :
    (∀ n, t = .cls n true → unwrapType (mkUnion [t, .dictCls]) = .ok t) ∧
      ((∀ n, t ≠ .cls n true) → unwrapType (mkUnion [t, .dictCls]) = .ok (.union [t, .dictCls])) := by
  have e : mkUnion [t, .dictCls] = .union [t, .dictCls] :=
    mkUnion_nodup (by rw [flatten_single h]; rfl) (by simp [hne])
  rw [e, unwrapType_union]
  constructor
  · rintro n rfl
    rfl
  · intro hi
    have hl : looksInputType t .dictCls = false := by
      cases h with
      | cls n i => cases i with
        | true => exact absurd rfl (hi n)
        | false => rfl
      | _ => rfl
    have ho : isOptional (.union [t, .dictCls]) = false := by cases h <;> rfl
    simp only [unwrapInner, unwrapUnion, hl, unwrapOptional, ho]
    rfl

/-- Non-trivial instances. -/
example : Single (.cls "NestedArgs" true) ∧ unwrapType (mkUnion [.cls "NestedArgs" true, .dictCls]) = .ok (.cls "NestedArgs" true)
    ∧ unwrapType (mkUnion [.cls "Nested" false, .dictCls]) = .ok (.union [.cls "Nested" false, .dictCls]) :=
  ⟨.cls _ _, rfl, rfl⟩

/-- Non-trivial instances. -/
example : unwrapType (outputOf (mkUnion [.str, .gen .dict [.str, .str]])) = .ok .str ∧ use .str = .other ∧
    unwrapType (mkUnion [.noneType, .str]) = .error .assertion := ⟨rfl, rfl, rfl⟩

end Pulumi.Types
