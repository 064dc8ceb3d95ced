import Verif.Checkpoint.Spec
import Verif.Json.Theorems
/-! # JSON is a faithful codec -/
namespace Pulumi.Checkpoint

open Wire (W)
open Json (J readJson wholeFloats)

mutual
/-- A value as JSON. -/
def toJ : W → J wholeFloats
  | .null => .null
  | .bool b => .bool b
  | .num n => .int n
  | .str s => .str s.toList
  | .list ws => .arr (toJList ws)
  | .struct kvs => .obj (toJKvs kvs)
def toJList : List W → List (J wholeFloats)
  | [] => []
  | w :: ws => toJ w :: toJList ws
def toJKvs : List (String × W) → List (Json.Text × J wholeFloats)
  | [] => []
  | (k, w) :: kvs => (k.toList, toJ w) :: toJKvs kvs
end

mutual
/-- JSON as a value; other numbers than whole ones there are none. -/
def ofJ : J wholeFloats → W
  | .null => .null
  | .bool b => .bool b
  | .int n => .num n
  | .float n => .num (Int.ofNat n)
  | .str s => .str (String.ofList s)
  | .arr ws => .list (ofJList ws)
  | .obj kvs => .struct (ofJKvs kvs)
def ofJList : List (J wholeFloats) → List W
  | [] => []
  | w :: ws => ofJ w :: ofJList ws
def ofJKvs : List (Json.Text × J wholeFloats) → List (String × W)
  | [] => []
  | (k, w) :: kvs => (String.ofList k, ofJ w) :: ofJKvs kvs
end

mutual
theorem ofJ_toJ (w : W) : ofJ (toJ w) = w := by
  cases w <;> simp only [toJ, ofJ, String.ofList_toList]
  · rw [ofJList_toJList]
  · rw [ofJKvs_toJKvs]
theorem ofJList_toJList (ws : List W) : ofJList (toJList ws) = ws := by
  cases ws with
  | nil => rfl
  | cons w ws => rw [toJList, ofJList, ofJ_toJ, ofJList_toJList]
theorem ofJKvs_toJKvs (kvs : List (String × W)) : ofJKvs (toJKvs kvs) = kvs := by
  match kvs with
  | [] => rfl
  | (k, w) :: kvs => rw [toJKvs, ofJKvs, ofJ_toJ, ofJKvs_toJKvs, String.ofList_toList]
end

/-- JSON texts. -/
def jsonCodec : Codec where
  print w := String.ofList (toJ w).text
  parse t := (readJson wholeFloats t.toList).map ofJ

theorem json_faithful : jsonCodec.Faithful := by
  intro w
  have h : jsonCodec.parse (jsonCodec.print w) = some w := by
    simp only [jsonCodec, String.toList_ofList, Json.readJson_text, Option.map_some, ofJ_toJ]
  refine ⟨h, ?_, ?_⟩
  · intro e
    rw [e] at h
    have : jsonCodec.parse "" = none := by decide
    rw [this] at h
    cases h
  · intro e
    have e : (toJ w).text = reserved.toList := by
      rw [← e]
      exact String.toList_ofList.symm
    have hh : ∀ c t, (toJ w).text = c :: t → c = '0' := by
      intro c t ht
      rw [ht] at e
      exact (List.cons.inj e).1
    cases w with
    | null => exact absurd (hh 'n' _ rfl) (by decide)
    | bool b => cases b <;> exact absurd (hh _ _ rfl) (by decide)
    | num n =>
      have hd : 'd' ∈ (toJ (.num n)).text := by rw [e]; decide
      rw [toJ, J.text] at hd
      exact absurd (Json.intText_chars n 'd' hd) (by decide)
    | str t => exact absurd (hh '"' _ rfl) (by decide)
    | list ws => exact absurd (hh '[' _ rfl) (by decide)
    | struct kvs => exact absurd (hh '{' _ rfl) (by decide)

end Pulumi.Checkpoint
