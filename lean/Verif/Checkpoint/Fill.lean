import Verif.Checkpoint.Lemmas
/-! # Lemmas: writing a value is encrypting the texts of its secrets, and nothing else -/
namespace Pulumi.Checkpoint

open Wire (W)
open Engine (EV Blob RefId)

mutual
/-- Writing with no encryption. -/
def plain (J : Codec) (b : Bool) : EV → W
  | .null => .null
  | .bool b => .bool b
  | .num n => .num n
  | .str t => .str t
  | .array es => .list (plainList J b es)
  | .object kvs => .struct (plainKvs J b kvs)
  | .blob b => blobW b
  | .computed _ => .str placeholder
  | .output .. => .str placeholder
  | .ref urn id version => refW urn id version
  | .secret e => secretW b (J.print (plain J b e)) (J.print (plain J b e))
def plainList (J : Codec) (b : Bool) : List EV → List W
  | [] => []
  | e :: es => plain J b e :: plainList J b es
def plainKvs (J : Codec) (b : Bool) : List (String × EV) → List (String × W)
  | [] => []
  | (k, e) :: kvs => (k, plain J b e) :: plainKvs J b kvs
end

mutual
theorem serialize_nop (J : Codec) (b : Bool) {σ : Type} (v : EV) (s : σ) :
    serialize J b nopEncrypter v s = .ok (plain J b v, s) := by
  cases v <;> simp only [serialize, plain]
  · rw [serializeList_nop]; rfl
  · rw [serializeKvs_nop]; rfl
  · rw [serialize_nop]; rfl
theorem serializeList_nop (J : Codec) (b : Bool) {σ : Type} (es : List EV) (s : σ) :
    serializeList J b nopEncrypter es s = .ok (plainList J b es, s) := by
  cases es with
  | nil => rfl
  | cons e es =>
    simp only [serializeList, plainList]
    rw [serialize_nop]
    simp only [bind, Except.bind]
    rw [serializeList_nop]; rfl
theorem serializeKvs_nop (J : Codec) (b : Bool) {σ : Type} (kvs : List (String × EV)) (s : σ) :
    serializeKvs J b nopEncrypter kvs s = .ok (plainKvs J b kvs, s) := by
  match kvs with
  | [] => rfl
  | (k, e) :: kvs =>
    simp only [serializeKvs, plainKvs]
    rw [serialize_nop]
    simp only [bind, Except.bind]
    rw [serializeKvs_nop]; rfl
end

/-- The text of a secret. -/
def textOf (J : Codec) (b : Bool) (e : EV) : String := J.print (plain J b e)

theorem isText_iff (J : Codec) (b : Bool) (e : EV) (t : String) : IsText J b e t ↔ t = textOf J b e := by
  unfold IsText textOf
  rw [serialize_nop]
  constructor
  · rintro ⟨w, h, rfl⟩
    cases h
    rfl
  · rintro rfl
    exact ⟨_, rfl, rfl⟩

/-- Encryption of texts one after the other. -/
def encAll {σ : Type} (enc : Encrypter σ) : List String → σ → Except Err (List String × σ)
  | [], s => .ok ([], s)
  | p :: ps, s => do
    let (c, s) ← enc p s
    let (cs, s) ← encAll enc ps s
    return (c :: cs, s)

theorem encAll_cons {σ : Type} {enc : Encrypter σ} {p ps} {s : σ} {c s1} (h : enc p s = .ok (c, s1)) :
    encAll enc (p :: ps) s = (encAll enc ps s1).map fun r => (c :: r.1, r.2) := by
  simp only [encAll, h, bind, Except.bind]
  cases encAll enc ps s1 <;> rfl

theorem encAll_append {σ : Type} (enc : Encrypter σ) (a b : List String) (s : σ) :
    encAll enc (a ++ b) s = match encAll enc a s with
      | .error e => .error e
      | .ok (cs, s1) => (encAll enc b s1).map fun r => (cs ++ r.1, r.2) := by
  induction a generalizing s with
  | nil =>
    simp only [List.nil_append, encAll]
    cases encAll enc b s <;> rfl
  | cons p a ih =>
    rw [List.cons_append]
    cases h : enc p s with
    | error e => simp only [encAll, h]; rfl
    | ok r =>
      obtain ⟨c, s1⟩ := r
      rw [encAll_cons h, encAll_cons h, ih]
      cases encAll enc a s1 with
      | error e => rfl
      | ok r =>
        obtain ⟨cs, s2⟩ := r
        simp only [Except.map]
        cases encAll enc b s2 <;> rfl

theorem encAll_length {σ : Type} {enc : Encrypter σ} {ps : List String} {s : σ} {cs s'} (h : encAll enc ps s = .ok (cs, s')) :
    cs.length = ps.length := by
  induction ps generalizing s cs s' with
  | nil => cases h; rfl
  | cons p ps ih =>
    cases h1 : enc p s with
    | error e => simp only [encAll, h1] at h; cases h
    | ok r =>
      obtain ⟨c, s1⟩ := r
      rw [encAll_cons h1] at h
      cases h2 : encAll enc ps s1 with
      | error e => rw [h2] at h; cases h
      | ok r =>
        obtain ⟨cs', s2⟩ := r
        rw [h2] at h
        cases h
        simp [ih h2]

theorem encrypts_iff {σ : Type} (enc : Encrypter σ) (ps : List String) (s : σ) (cs : List String) (s' : σ) :
    Encrypts enc ps s cs s' ↔ encAll enc ps s = .ok (cs, s') := by
  constructor
  · intro h
    induction h with
    | nil s => rfl
    | cons h _ ih => rw [encAll_cons h, ih]; rfl
  · intro h
    induction ps generalizing s cs with
    | nil => cases h; exact .nil _
    | cons p ps ih =>
      cases h1 : enc p s with
      | error e => simp only [encAll, h1] at h; cases h
      | ok r =>
        obtain ⟨c, s1⟩ := r
        rw [encAll_cons h1] at h
        cases h2 : encAll enc ps s1 with
        | error e => rw [h2] at h; cases h
        | ok r =>
          obtain ⟨cs', s2⟩ := r
          rw [h2] at h
          cases h
          exact .cons h1 (ih s1 cs' h2)

mutual
theorem fill_append (J : Codec) (v : EV) (cs rest : List String) (h : cs.length = (secretsOf v).length) :
    fill J v (cs ++ rest) = ((fill J v cs).1, rest) := by
  cases v <;> simp only [secretsOf, List.length_nil] at h
  case array es => simp only [fill, fillList_append J es cs rest h]
  case object kvs => simp only [fill, fillKvs_append J kvs cs rest h]
  case secret e =>
    match cs, h with
    | [c], _ => rfl
  all_goals
    obtain rfl := List.eq_nil_of_length_eq_zero h
    simp only [fill, List.nil_append]
theorem fillList_append (J : Codec) (es : List EV) (cs rest : List String) (h : cs.length = (secretsOfList es).length) :
    fillList J es (cs ++ rest) = ((fillList J es cs).1, rest) := by
  cases es with
  | nil =>
    simp only [secretsOfList, List.length_nil] at h
    obtain rfl := List.eq_nil_of_length_eq_zero h
    rfl
  | cons e es =>
    simp only [secretsOfList, List.length_append] at h
    obtain ⟨a, b, rfl, ha, hb⟩ : ∃ a b, cs = a ++ b ∧ a.length = (secretsOf e).length ∧ b.length = (secretsOfList es).length :=
      ⟨cs.take (secretsOf e).length, cs.drop (secretsOf e).length, (List.take_append_drop ..).symm, by
        rw [List.length_take]; omega, by rw [List.length_drop]; omega⟩
    simp only [fillList, List.append_assoc]
    rw [fill_append J e a (b ++ rest) ha, fill_append J e a b ha, fillList_append J es b rest hb]
theorem fillKvs_append (J : Codec) (kvs : List (String × EV)) (cs rest : List String)
    (h : cs.length = (secretsOfProps kvs).length) : fillKvs J kvs (cs ++ rest) = ((fillKvs J kvs cs).1, rest) := by
  match kvs with
  | [] =>
    simp only [secretsOfProps, List.length_nil] at h
    obtain rfl := List.eq_nil_of_length_eq_zero h
    rfl
  | (k, e) :: kvs =>
    simp only [secretsOfProps, List.length_append] at h
    obtain ⟨a, b, rfl, ha, hb⟩ : ∃ a b, cs = a ++ b ∧ a.length = (secretsOf e).length ∧ b.length = (secretsOfProps kvs).length :=
      ⟨cs.take (secretsOf e).length, cs.drop (secretsOf e).length, (List.take_append_drop ..).symm, by
        rw [List.length_take]; omega, by rw [List.length_drop]; omega⟩
    simp only [fillKvs, List.append_assoc]
    rw [fill_append J e a (b ++ rest) ha, fill_append J e a b ha, fillKvs_append J kvs b rest hb]
end

theorem secretW_false (p q c : String) : secretW false p c = secretW false q c := rfl

mutual
/-- Writing a value is encrypting the texts of its outermost secrets. -/
theorem serialize_eq (J : Codec) {σ : Type} (enc : Encrypter σ) (v : EV) (s : σ) :
    serialize J false enc v s =
      (encAll enc ((secretsOf v).map (textOf J false)) s).map fun r => ((fill J v r.1).1, r.2) := by
  cases v
  case array es =>
    simp only [serialize, secretsOf]
    rw [serializeList_eq]
    cases encAll enc ((secretsOfList es).map (textOf J false)) s <;> rfl
  case object kvs =>
    simp only [serialize, secretsOf]
    rw [serializeKvs_eq]
    cases encAll enc ((secretsOfProps kvs).map (textOf J false)) s <;> rfl
  case secret e =>
    simp only [serialize, secretsOf, List.map_cons, List.map_nil]
    rw [serialize_nop]
    simp only [bind, Except.bind]
    cases h : enc (J.print (plain J false e)) s with
    | error x => simp only [encAll, textOf, h, bind, Except.bind]; rfl
    | ok r => simp only [encAll, textOf, h, bind, Except.bind]; rfl
  all_goals rfl
theorem serializeList_eq (J : Codec) {σ : Type} (enc : Encrypter σ) (es : List EV) (s : σ) :
    serializeList J false enc es s =
      (encAll enc ((secretsOfList es).map (textOf J false)) s).map fun r => ((fillList J es r.1).1, r.2) := by
  cases es with
  | nil => rfl
  | cons e es =>
    simp only [serializeList, secretsOfList, List.map_append]
    rw [serialize_eq, encAll_append]
    cases h : encAll enc ((secretsOf e).map (textOf J false)) s with
    | error x => rfl
    | ok r =>
      obtain ⟨cs, s1⟩ := r
      simp only [Except.map, bind, Except.bind]
      rw [serializeList_eq]
      have hl := encAll_length h
      rw [List.length_map] at hl
      cases h2 : encAll enc ((secretsOfList es).map (textOf J false)) s1 with
      | error x => rfl
      | ok r =>
        simp only [Except.map, fillList]
        rw [fill_append J e cs _ hl]
        rfl
theorem serializeKvs_eq (J : Codec) {σ : Type} (enc : Encrypter σ) (kvs : List (String × EV)) (s : σ) :
    serializeKvs J false enc kvs s =
      (encAll enc ((secretsOfProps kvs).map (textOf J false)) s).map fun r => ((fillKvs J kvs r.1).1, r.2) := by
  match kvs with
  | [] => rfl
  | (k, e) :: kvs =>
    simp only [serializeKvs, secretsOfProps, List.map_append]
    rw [serialize_eq, encAll_append]
    cases h : encAll enc ((secretsOf e).map (textOf J false)) s with
    | error x => rfl
    | ok r =>
      obtain ⟨cs, s1⟩ := r
      simp only [Except.map, bind, Except.bind]
      rw [serializeKvs_eq]
      have hl := encAll_length h
      rw [List.length_map] at hl
      cases h2 : encAll enc ((secretsOfProps kvs).map (textOf J false)) s1 with
      | error x => rfl
      | ok r =>
        simp only [Except.map, fillKvs]
        rw [fill_append J e cs _ hl]
        rfl
end

theorem encAll_tight {σ : Type} {enc : Encrypter σ} (h : Tight enc) {ps qs : List String} (hl : ps.length = qs.length) (s : σ) :
    encAll enc ps s = encAll enc qs s := by
  induction ps generalizing qs s with
  | nil =>
    cases qs with
    | nil => rfl
    | cons q qs => cases hl
  | cons p ps ih =>
    cases qs with
    | nil => cases hl
    | cons q qs =>
      simp only [encAll]
      rw [h p q s]
      cases enc q s with
      | error e => rfl
      | ok r =>
        simp only [bind, Except.bind]
        rw [ih (by simpa using hl)]

theorem samePublic_fill (J : Codec) {v v' : EV} (h : SamePublic v v') :
    (secretsOf v).length = (secretsOf v').length ∧ ∀ cs, fill J v cs = fill J v' cs := by
  induction h with
  | refl v => exact ⟨rfl, fun _ => rfl⟩
  | secret e e' => exact ⟨rfl, fun _ => rfl⟩
  | computed e e' => exact ⟨rfl, fun _ => rfl⟩
  | nil => exact ⟨rfl, fun _ => rfl⟩
  | empty => exact ⟨rfl, fun _ => rfl⟩
  | @cons e e' es es' _ _ ih1 ih2 =>
    simp only [secretsOf, fill, secretsOfList, fillList, List.length_append] at ih1 ih2 ⊢
    refine ⟨by rw [ih1.1, ih2.1], fun cs => ?_⟩
    have := ih2.2 (fill J e cs).2
    simp only [Prod.mk.injEq, W.list.injEq] at this
    rw [ih1.2 cs] at this ⊢
    rw [this.1, this.2]
  | @entry k e e' kvs kvs' _ _ ih1 ih2 =>
    simp only [secretsOf, fill, secretsOfProps, fillKvs, List.length_append] at ih1 ih2 ⊢
    refine ⟨by rw [ih1.1, ih2.1], fun cs => ?_⟩
    have := ih2.2 (fill J e cs).2
    simp only [Prod.mk.injEq, W.struct.injEq] at this
    rw [ih1.2 cs] at this ⊢
    rw [this.1, this.2]

end Pulumi.Checkpoint
