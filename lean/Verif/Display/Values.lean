import Verif.Checkpoint.Model
import Verif.Display.Filter
/-!
# Values in events (C211)

Models `/repo/pkg/engine/events.go:496-591` (`filterResourceProperties` and what it calls), which the inputs and outputs of a resource go through before they are in an event, and
`convertStepEventStateMetadata` (`/repo/pkg/backend/display/events.go:204-232`), which writes them for the service with the encrypter that encrypts everything to the same text. The filter for
texts is a parameter here, as is what is done with the code of serialized functions (`IsUserProgramCode`, `MassageIfUserProgramCodeAsset`: regular expressions over the text).
-/
namespace Pulumi.Display

open Engine (EV Blob RefId)

/-- What is done to texts: `FilterString`, `IsUserProgramCode` and `MassageIfUserProgramCodeAsset` -/
structure Texts where
  filter : String → String
  isCode : String → Bool
  massage : String → String

/-- `IsText` (`/repo/sdk/go/common/resource/asset.go:93`) -/
def isText (path uri : String) : Bool := !(path != "") && !(uri != "")

mutual
/-- `filterAsset` (events.go:542-567) and `filterArchive` (569-591) -/
def filterBlob (T : Texts) : Blob → Blob
  | .asset hash text path uri =>
    if !(isText path uri) then .asset hash text path uri
    else .asset hash (if T.isCode text then T.filter (T.massage text) else "<contents elided>") "" ""
  | .archive hash path uri => .archive hash path uri
  | .assets hash members _ _ => .assets hash (filterMembers T members) "" ""
def filterMembers (T : Texts) : List (String × Blob) → List (String × Blob)
  | [] => []
  | (k, b) :: l => (k, filterBlob T b) :: filterMembers T l
end

/-- The id of a reference (events.go:533-537): it is null, a string or computed. -/
def filterId (T : Texts) : RefId → RefId
  | .none => .none
  | .known s => .known (T.filter s)
  | .unknown => .unknown

mutual
/-- `filterPropertyValue` (events.go:500-540) -/
def filterValue (T : Texts) : EV → EV
  | .null => .null
  | .bool b => .bool b
  | .num n => .num n
  | .str s => .str (T.filter s)
  | .blob b => .blob (filterBlob T b)
  | .array xs => .array (filterList T xs)
  | .object kvs => .object (filterKvs T kvs)
  | .computed e => .computed (filterValue T e)
  | .output e _ _ _ => .computed (filterValue T e)
  | .secret _ => .secret (.str "[secret]")
  | .ref urn id version => .ref (T.filter urn) (filterId T id) (T.filter version)
def filterList (T : Texts) : List EV → List EV
  | [] => []
  | e :: l => filterValue T e :: filterList T l
/-- `filterResourceProperties` (events.go:496-498), and objects (518-523) -/
def filterKvs (T : Texts) : List (String × EV) → List (String × EV)
  | [] => []
  | (k, e) :: l => (k, filterValue T e) :: filterKvs T l
end

/-- `BlindingCrypter` (`/repo/sdk/go/common/resource/config/crypt.go:104-122`): everything is encrypted to the same text. -/
def blinding : Checkpoint.Encrypter Unit := fun _ s => .ok ("[secret]", s)

/-- What is sent to the service (display/events.go:211-216): no secrets are shown (`state.go:98`). -/
def sentProps (J : Checkpoint.Codec) (T : Texts) (props : List (String × EV)) : Except Checkpoint.Err (List (String × Wire.W) × Unit) :=
  Checkpoint.serializeKvs J false blinding (filterKvs T props) ()

/-! ## What is said about it -/

mutual
/-- A value without what is in its secrets -/
def redact : EV → EV
  | .null => .null
  | .bool b => .bool b
  | .num n => .num n
  | .str s => .str s
  | .blob b => .blob b
  | .array xs => .array (redactList xs)
  | .object kvs => .object (redactKvs kvs)
  | .computed e => .computed (redact e)
  | .output e k s d => .output (redact e) k s d
  | .secret _ => .secret .null
  | .ref urn id version => .ref urn id version
def redactList : List EV → List EV
  | [] => []
  | e :: l => redact e :: redactList l
def redactKvs : List (String × EV) → List (String × EV)
  | [] => []
  | (k, e) :: l => (k, redact e) :: redactKvs l
end

mutual
theorem filter_redact (T : Texts) : (v : EV) → filterValue T (redact v) = filterValue T v
  | .null | .bool _ | .num _ | .str _ | .blob _ | .secret _ | .ref _ _ _ => by simp [redact, filterValue]
  | .array xs => by simp [redact, filterValue, filterList_redact T xs]
  | .object kvs => by simp [redact, filterValue, filterKvs_redact T kvs]
  | .computed e => by simp [redact, filterValue, filter_redact T e]
  | .output e _ _ _ => by simp [redact, filterValue, filter_redact T e]
theorem filterList_redact (T : Texts) : (l : List EV) → filterList T (redactList l) = filterList T l
  | [] => rfl
  | e :: l => by simp [redactList, filterList, filter_redact T e, filterList_redact T l]
theorem filterKvs_redact (T : Texts) : (l : List (String × EV)) → filterKvs T (redactKvs l) = filterKvs T l
  | [] => rfl
  | (k, e) :: l => by simp [redactKvs, filterKvs, filter_redact T e, filterKvs_redact T l]
end

/-- **C211** Events tell nothing of secrets: values that differ only within their secrets are the same in an event, and in what is sent to the service. -/
theorem events_tell_nothing_of_secrets (J : Checkpoint.Codec) (T : Texts) {a b : List (String × EV)} (h : redactKvs a = redactKvs b) : filterKvs T a = filterKvs T b ∧ sentProps J T a = sentProps J T b := by
  have h1 : filterKvs T a = filterKvs T b := by rw [← filterKvs_redact T a, ← filterKvs_redact T b, h]
  exact ⟨h1, by rw [sentProps, sentProps, h1]⟩

mutual
/-- The texts in a value: strings, the parts of references and the texts of assets; not the keys of objects and the names, paths, addresses and hashes of assets -/
def texts : EV → List String
  | .null => []
  | .bool _ => []
  | .num _ => []
  | .str s => [s]
  | .blob b => blobTexts b
  | .array xs => listTexts xs
  | .object kvs => kvsTexts kvs
  | .computed e => texts e
  | .output e _ _ _ => texts e
  | .secret e => texts e
  | .ref urn id version => urn :: version :: (match id with | .known s => [s] | _ => [])
def listTexts : List EV → List String
  | [] => []
  | e :: l => texts e ++ listTexts l
def kvsTexts : List (String × EV) → List String
  | [] => []
  | (_, e) :: l => texts e ++ kvsTexts l
/-- The texts of the assets that are texts -/
def blobTexts : Blob → List String
  | .asset _ text path uri => if isText path uri then [text] else []
  | .archive _ _ _ => []
  | .assets _ members _ _ => membersTexts members
def membersTexts : List (String × Blob) → List String
  | [] => []
  | (_, b) :: l => blobTexts b ++ membersTexts l
end

/-- What a text in an event can be -/
def Shown (T : Texts) (t : String) : Prop := t = "[secret]" ∨ t = "<contents elided>" ∨ ∃ s, t = T.filter s

mutual
theorem blob_shown (T : Texts) : (b : Blob) → ∀ t ∈ blobTexts (filterBlob T b), Shown T t
  | .asset hash text path uri => by
    intro t ht
    unfold filterBlob at ht
    split at ht
    · rename_i hp
      have : isText path uri = false := by simpa using hp
      simp [blobTexts, this] at ht
    · have h0 : isText "" "" = true := by decide
      simp only [blobTexts, h0, if_true, List.mem_singleton] at ht
      split at ht
      · exact .inr (.inr ⟨_, ht⟩)
      · exact .inr (.inl ht)
  | .archive _ _ _ => by intro t ht; simp [filterBlob, blobTexts] at ht
  | .assets _ members _ _ => by
    intro t ht
    simp only [filterBlob, blobTexts] at ht
    exact members_shown T members t ht
theorem members_shown (T : Texts) : (l : List (String × Blob)) → ∀ t ∈ membersTexts (filterMembers T l), Shown T t
  | [] => by intro t ht; simp [filterMembers, membersTexts] at ht
  | (k, b) :: l => by
    intro t ht
    simp only [filterMembers, membersTexts, List.mem_append] at ht
    rcases ht with ht | ht
    · exact blob_shown T b t ht
    · exact members_shown T l t ht
end

mutual
theorem value_shown (T : Texts) : (v : EV) → ∀ t ∈ texts (filterValue T v), Shown T t
  | .null | .bool _ | .num _ => by intro t ht; simp [filterValue, texts] at ht
  | .str s => by intro t ht; simp [filterValue, texts] at ht; exact .inr (.inr ⟨s, ht⟩)
  | .secret _ => by intro t ht; simp [filterValue, texts] at ht; exact .inl ht
  | .blob b => by intro t ht; simp only [filterValue, texts] at ht; exact blob_shown T b t ht
  | .array xs => by intro t ht; simp only [filterValue, texts] at ht; exact list_shown T xs t ht
  | .object kvs => by intro t ht; simp only [filterValue, texts] at ht; exact kvs_shown T kvs t ht
  | .computed e => by intro t ht; simp only [filterValue, texts] at ht; exact value_shown T e t ht
  | .output e _ _ _ => by intro t ht; simp only [filterValue, texts] at ht; exact value_shown T e t ht
  | .ref urn id version => by
    intro t ht
    simp only [filterValue, texts] at ht
    rcases List.mem_cons.mp ht with ht | ht
    · exact .inr (.inr ⟨_, ht⟩)
    rcases List.mem_cons.mp ht with ht | ht
    · exact .inr (.inr ⟨_, ht⟩)
    cases id <;> simp [filterId] at ht
    exact .inr (.inr ⟨_, ht⟩)
theorem list_shown (T : Texts) : (l : List EV) → ∀ t ∈ listTexts (filterList T l), Shown T t
  | [] => by intro t ht; simp [filterList, listTexts] at ht
  | e :: l => by
    intro t ht
    simp only [filterList, listTexts, List.mem_append] at ht
    rcases ht with ht | ht
    · exact value_shown T e t ht
    · exact list_shown T l t ht
theorem kvs_shown (T : Texts) : (l : List (String × EV)) → ∀ t ∈ kvsTexts (filterKvs T l), Shown T t
  | [] => by intro t ht; simp [filterKvs, kvsTexts] at ht
  | (k, e) :: l => by
    intro t ht
    simp only [filterKvs, kvsTexts, List.mem_append] at ht
    rcases ht with ht | ht
    · exact value_shown T e t ht
    · exact kvs_shown T l t ht
end

/-- **C211** A secret of the configuration is in no text of an event, wherever in the inputs and outputs of a resource it came: in strings, in references, in the text of assets. The secret is one of
at least three bytes and has no square brackets, and it is not a part of the two texts that stand for what is left out. -/
theorem config_secrets_are_not_in_events {T : Texts} {filters : List (List Text)} (hT : ∀ s, (T.filter s).toList = filterString filters s.toList) {secrets : List Text} {s : Text} (hf : secrets ∈ filters)
    (hm : s ∈ secrets) (h3 : 3 ≤ byteLen s) (hs : NoBrackets s) (hw : ¬ s <:+: word) (hw' : ¬ s <:+: "<contents elided>".toList) (props : List (String × EV)) :
    ∀ t ∈ kvsTexts (filterKvs T props), ¬ s <:+: t.toList := by
  intro t ht
  rcases kvs_shown T props t ht with rfl | rfl | ⟨x, rfl⟩
  · intro h
    have e : "[secret]".toList = replacement ++ [] := by decide +kernel
    rw [e] at h
    rcases in_replacement hs h with h | h
    · exact hw h
    · exact item_ne_nil (mem_items.mpr ⟨hm, h3⟩) (List.infix_nil.mp h)
  · exact hw'
  · rw [hT]; exact no_secret_is_left hf hm h3 hs hw

mutual
/-- The shape of a value: what kind of value is where. An output that is in the state is taken for one that is not known. -/
def sameShape : EV → EV → Bool
  | .null, .null => true
  | .bool a, .bool b => a == b
  | .num a, .num b => a == b
  | .str _, .str _ => true
  | .blob _, .blob _ => true
  | .array a, .array b => sameShapes a b
  | .object a, .object b => sameShapesKvs a b
  | .computed a, .computed b => sameShape a b
  | .output a _ _ _, .computed b => sameShape a b
  | .secret _, .secret _ => true
  | .ref _ _ _, .ref _ _ _ => true
  | _, _ => false
def sameShapes : List EV → List EV → Bool
  | [], [] => true
  | a :: l, b :: m => sameShape a b && sameShapes l m
  | _, _ => false
def sameShapesKvs : List (String × EV) → List (String × EV) → Bool
  | [], [] => true
  | (j, a) :: l, (k, b) :: m => j == k && sameShape a b && sameShapesKvs l m
  | _, _ => false
end

mutual
theorem shape_kept (T : Texts) : (v : EV) → sameShape v (filterValue T v) = true
  | .null | .bool _ | .num _ | .str _ | .blob _ | .secret _ | .ref _ _ _ => by simp [filterValue, sameShape]
  | .array xs => by simpa [filterValue, sameShape] using shapes_kept T xs
  | .object kvs => by simpa [filterValue, sameShape] using shapes_kept_kvs T kvs
  | .computed e => by simpa [filterValue, sameShape] using shape_kept T e
  | .output e _ _ _ => by simpa [filterValue, sameShape] using shape_kept T e
theorem shapes_kept (T : Texts) : (l : List EV) → sameShapes l (filterList T l) = true
  | [] => rfl
  | e :: l => by simp [filterList, sameShapes, shape_kept T e, shapes_kept T l]
/-- **C211** An event has the same properties as the resource, with the same kinds of values: numbers and booleans are as they are, and what is secret is marked as secret. -/
theorem shapes_kept_kvs (T : Texts) : (l : List (String × EV)) → sameShapesKvs l (filterKvs T l) = true
  | [] => rfl
  | (k, e) :: l => by simp [filterKvs, sameShapesKvs, shape_kept T e, shapes_kept_kvs T l]
end

/-! ### What does not hold -/

/-- What is done to texts when the configuration has the secret `hunter2` -/
def exTexts : Texts := ⟨fun s => String.ofList (filterString [["hunter2".toList]] s.toList), fun _ => false, id⟩

/-- **C211** The keys of objects and the paths of assets are not filtered: a secret of the configuration that is used as one of them is shown. -/
theorem keys_and_paths_are_shown : filterKvs exTexts [("hunter2", .null), ("file", .blob (.asset "" "" "/hunter2" ""))] = [("hunter2", .null), ("file", .blob (.asset "" "" "/hunter2" ""))] := by
  have : isText "/hunter2" "" = false := by decide +kernel
  simp [filterKvs, filterValue, filterBlob, this]

/-- **C211** An output that is marked as secret is taken for one that is only not known yet: what is in it is in the event, and not marked. -/
theorem secret_outputs_are_shown : filterKvs exTexts [("out", .output (.num 42) true true [])] = [("out", .computed (.num 42))] := by
  simp [filterKvs, filterValue]

/-- Two states that differ only in their secrets -/
example : redactKvs [("a", .array [.secret (.str "x"), .str "y"])] = redactKvs [("a", .array [.secret (.num 3), .str "y"])] := by simp [redactKvs, redact, redactList]

example : filterKvs exTexts [("a", .array [.secret (.str "x"), .str "my hunter2!"]), ("t", .blob (.asset "h" "long text" "" ""))] =
    [("a", .array [.secret (.str "[secret]"), .str "my [secret]!"]), ("t", .blob (.asset "h" "<contents elided>" "" ""))] := by
  have h1 : exTexts.filter "my hunter2!" = "my [secret]!" := by decide +kernel
  have h2 : isText "" "" = true := by decide +kernel
  have h3 : exTexts.isCode "long text" = false := rfl
  simp [filterKvs, filterValue, filterList, filterBlob, h1, h2, h3]

example : ∀ s, (exTexts.filter s).toList = filterString [["hunter2".toList]] s.toList := fun s => by simp [exTexts]

end Pulumi.Display
