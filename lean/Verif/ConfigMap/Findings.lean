import Verif.ConfigMap.Theorems
import Verif.ConfigMap.Saved
/-! # Where setting and removing configuration goes wrong, and cases of the theorems -/
namespace Pulumi.ConfigMap

open Wire (W)
open Checkpoint (Codec jsonCodec)
open Paths (Path)

/-- A configuration with a text, a secret, and an object with a list, a number and a secret. -/
def sample (J : Codec) : Map :=
  [(⟨"proj", "region"⟩, ⟨"west", false, false⟩),
   (⟨"proj", "token"⟩, ⟨"c1", true, false⟩),
   (⟨"proj", "db"⟩, ⟨J.print (.struct [("hosts", .list [.str "a", .str "b", .str "c"]), ("port", .num 5432),
      ("password", .struct [("secure", .str "c2")])]), true, true⟩)]

def key (s : String) : Key := ⟨"proj", s⟩

/-- JSON as `Checkpoint` models it is written and read faithfully. -/
theorem faithful_json : Faithful jsonCodec := by
  intro w
  simp only [jsonCodec, String.toList_ofList, Json.readJson_text, Option.map_some, Checkpoint.ofJ_toJ]

/-- What is got for a key after something has been done to the sample. -/
def after (r : Except Err Map) (k : String) : Option (Option Value) :=
  (r.bind fun m => m.get jsonCodec (key k) true).toOption

def set (k : String) (v : Value) : Except Err Map := (sample jsonCodec).set jsonCodec (key k) v true
def remove (k : String) : Except Err Map := (sample jsonCodec).remove jsonCodec (key k) true

/-! ## Cases of the theorems -/

/-- `set_then_get`, `set_changes_nothing_else` and `what_contains_is_an_object` are about this. -/
example : after (set "db.hosts[1]" ⟨"z", false, false⟩) "db.hosts[1]" = some (some ⟨"z", false, false⟩) ∧
    after (set "db.hosts[1]" ⟨"z", false, false⟩) "db.hosts[0]" = some (some ⟨"a", false, false⟩) ∧
    after (set "db.hosts[1]" ⟨"z", false, false⟩) "db.password" = some (some ⟨"c2", true, false⟩) ∧
    after (set "db.hosts[1]" ⟨"z", false, false⟩) "db.hosts" =
      some (some ⟨jsonCodec.print (.list [.str "a", .str "z", .str "c"]), false, true⟩) := by decide +kernel

example : Elsewhere (key "db.hosts[1]") (key "db.password") ∧ Elsewhere (key "db.hosts[1]") (key "db.hosts[0]") ∧
    Elsewhere (key "db") (key "token") := by
  have h1 : Paths.parse (key "db.hosts[1]").name.toList = .ok [.name "db".toList, .name "hosts".toList, .idx 1] := by rfl
  have h2 : Paths.parse (key "db.password").name.toList = .ok [.name "db".toList, .name "password".toList] := by rfl
  have h3 : Paths.parse (key "db.hosts[0]").name.toList = .ok [.name "db".toList, .name "hosts".toList, .idx 0] := by rfl
  have h4 : Paths.parse (key "db").name.toList = .ok [.name "db".toList] := by rfl
  have h5 : Paths.parse (key "token").name.toList = .ok [.name "token".toList] := by rfl
  refine ⟨.inr fun p p' hp hq => ?_, .inr fun p p' hp hq => ?_, .inr fun p p' hp hq => ?_⟩
  · rw [h1] at hp; rw [h2] at hq; cases hp; cases hq
    exact ⟨by decide +kernel, by decide +kernel⟩
  · rw [h1] at hp; rw [h3] at hq; cases hp; cases hq
    exact ⟨by decide +kernel, by decide +kernel⟩
  · rw [h4] at hp; rw [h5] at hq; cases hp; cases hq
    exact ⟨by decide +kernel, by decide +kernel⟩

/-- `set_succeeds` is about this. -/
example : CanHold (.struct [("hosts", .list [.str "a", .str "b", .str "c"]), ("port", .num 5432)]) [.name "hosts".toList, .idx 3] ∧
    ¬ CanHold (.struct [("hosts", .list [.str "a", .str "b", .str "c"]), ("port", .num 5432)]) [.name "hosts".toList, .idx 4] ∧
    ¬ CanHold (.struct [("hosts", .list [.str "a", .str "b", .str "c"]), ("port", .num 5432)]) [.name "port".toList, .idx 0] ∧
    CanHold .null [.name "a".toList, .idx 0, .name "b".toList] := by
  simp [CanHold, List.lookup]

/-- An object is set in an object, `set_object_then_get`. -/
example : after (set "db.options" ⟨jsonCodec.print (.struct [("ssl", .bool true)]), false, true⟩) "db.options.ssl" =
    some (some ⟨"true", false, false⟩) := by decide +kernel

/-- Setting what would be taken for a secret is refused, and so is an index with a gap. -/
example : (set "db.password2.secure" ⟨"x", false, false⟩).toOption = none ∧
    (set "db.hosts[4]" ⟨"x", false, false⟩).toOption = none := by decide +kernel

/-- `removed_is_gone`, `remove_changes_nothing_else`, `removed_elements_close_up` and `removed_elements_change_nothing_else` are about
this. -/
example : after (remove "db.port") "db.port" = some none ∧ after (remove "db.port") "db.hosts[2]" = some (some ⟨"c", false, false⟩) ∧
    after (remove "db.hosts[1]") "db.hosts[0]" = some (some ⟨"a", false, false⟩) ∧
    after (remove "db.hosts[1]") "db.hosts[1]" = some (some ⟨"c", false, false⟩) ∧
    after (remove "db.hosts[1]") "db.hosts[2]" = some none ∧
    after (remove "db.hosts[1]") "db.password" = some (some ⟨"c2", true, false⟩) := by decide +kernel

example : Means (key "db.hosts[1]") ([.name "db".toList, .name "hosts".toList] ++ [.idx 1]) := ⟨rfl, _, _, rfl, by decide⟩

/-- The sample is written and read: `map_round_trips`. -/
example : ((sample jsonCodec).map (·.1)).Nodup ∧ (∀ kv ∈ sample jsonCodec, NoColon kv.1.ns ∧ NoColon kv.1.name) ∧
    ∀ kv ∈ sample jsonCodec, Consistent jsonCodec kv.2 := by
  refine ⟨by decide +kernel, by unfold NoColon; decide +kernel, fun kv h => ?_⟩
  simp only [sample, List.mem_cons, List.not_mem_nil, or_false] at h
  rcases h with rfl | rfl | rfl
  · intro h; cases h
  · intro h; cases h
  · intro _
    exact ⟨_, rfl, (fun _ h => by cases h), (fun h => by cases h), (fun _ h => by simp at h), rfl⟩

/-- An encrypter that counts, and what opens its texts. -/
def numbered : Encrypter Nat := fun p n => .ok ("n" ++ p, n + 1)
def openNumbered : String → Except Err String := fun c =>
  match c.toList with
  | 'n' :: r => .ok (String.ofList r)
  | _ => .error (.crypt "no")

example : Opens (fun _ : Nat => True) numbered openNumbered := by
  intro p s c s' _ h
  cases h
  refine ⟨?_, trivial⟩
  have : ("n" ++ p).toList = 'n' :: p.toList := by
    rw [String.toList_append]
    rfl
  simp [openNumbered, this]

/-- The sample is copied, and decrypts as it did: `copied_configuration_decrypts_the_same`. -/
def opened : String → Except Err String := fun c => .ok ("plain " ++ c)
example : (((sample jsonCodec).copy jsonCodec (.real opened) numbered 0).toOption.map fun r =>
      (r.1.map (·.2.secure), (r.1.decrypt jsonCodec (some (.real openNumbered))).toOption, r.2)) =
    some ([false, true, true], ((sample jsonCodec).decrypt jsonCodec (some (.real opened))).toOption, 2) ∧
    ((sample jsonCodec).decrypt jsonCodec (some (.real opened))).toOption.isSome = true := by decide +kernel

/-- `secrets_are_decrypted` and `the_rest_is_kept` are about this. -/
example : ∃ x, decryptObject opened (.struct [("l", .list [.num 1, .struct [("secure", .str "c")]])]) = .ok x ∧
    getForPath x [.name "l".toList, .idx 1] = some (.str "plain c") ∧ getForPath x [.name "l".toList, .idx 0] = some (.num 1) ∧
    At (.struct [("l", .list [.num 1, .struct [("secure", .str "c")]])]) [.name "l".toList, .idx (1 : Nat)]
      (.struct [("secure", .str "c")]) :=
  ⟨_, rfl, rfl, rfl, .key rfl rfl (.idx rfl (.here _))⟩

/-! ## Where it goes wrong -/

/-- **C184.** A text with a needless plus sign is set in an object as the number, and reads without the sign. -/
theorem plus_is_lost : after (set "db.user" ⟨"+5", false, false⟩) "db.user" = some (some ⟨"5", false, false⟩) ∧
    after (set "user" ⟨"+5", false, false⟩) "user" = some (some ⟨"+5", false, false⟩) := by decide +kernel

/-- **C185.** Setting a plain value in an object with a secret makes the object pass for one without secrets: decrypted, it shows the
ciphertext. It is saved and read with the secret again. -/
theorem plain_set_hides_the_secret :
    ∃ v, after (set "db.user" ⟨"me", false, false⟩) "db" = some (some v) ∧ v.secure = false ∧
      (v.toObject jsonCodec).toOption.map hasSecure = some true ∧ (v.read jsonCodec (some (.real opened))).toOption = some v.value ∧
      ((toJson jsonCodec v).toOption.map (fromJson jsonCodec)).map (·.secure) = some true :=
  ⟨((after (set "db.user" ⟨"me", false, false⟩) "db").bind id).getD ⟨"", false, false⟩, by decide +kernel⟩

/-- **C185.** Setting something below a secret in an object makes its ciphertext plain data of the object. -/
theorem setting_below_a_secret_unwraps_it : after (.ok (sample jsonCodec)) "db.password" = some (some ⟨"c2", true, false⟩) ∧
    after (set "db.password.hint" ⟨"dog", false, false⟩) "db.password.secure" = some (some ⟨"c2", false, false⟩) ∧
    after (set "db.password.hint" ⟨"dog", false, false⟩) "db.password" =
      some (some ⟨jsonCodec.print (.struct [("secure", .str "c2"), ("hint", .str "dog")]), false, true⟩) := by decide +kernel

/-- **C185.** Setting something below a secret or a text at the top discards it without an error. -/
theorem setting_below_a_value_discards_it : after (set "token.hint" ⟨"dog", false, false⟩) "token" =
    some (some ⟨jsonCodec.print (.struct [("hint", .str "dog")]), false, true⟩) := by decide +kernel

/-- **C186.** Removing something below a secret at the top makes it a plain value, of its ciphertext. -/
theorem removing_below_a_secret_unwraps_it : after (remove "token.hint") "token" = some (some ⟨"c1", false, false⟩) ∧
    after (.ok (sample jsonCodec)) "token" = some (some ⟨"c1", true, false⟩) := by decide +kernel

/-- **C187.** A key with a colon in its name, which can be set by a path, is not read as it was written: with one, the configuration
cannot be read; after `config:` it is another key. -/
theorem colons_break_keys : (parseKey (key "a:b").text).toOption = none ∧ parseKey (key "config:b").text = .ok (key "b") ∧
    ((set "[\"a:b\"]" ⟨"x", false, false⟩).toOption.map fun m => find (key "a:b") m) = some (some ⟨"x", false, false⟩) ∧
    ((set "[\"a:b\"]" ⟨"x", false, false⟩).bind fun m => (m.marshal jsonCodec).bind (Map.unmarshal jsonCodec)).toOption = none :=
  ⟨by decide +kernel, by rfl, by decide +kernel, by decide +kernel⟩

/-- **C188.** An object whose secret is hidden so is copied with the ciphertext of the old key. -/
theorem hidden_secrets_are_not_reencrypted :
    (((set "db.user" ⟨"me", false, false⟩).bind fun m => m.copy jsonCodec (.real opened) numbered 0).toOption.bind fun r =>
      (r.1.get jsonCodec (key "db.password") true).toOption) = some (some ⟨"c2", true, false⟩) ∧
    (((sample jsonCodec).copy jsonCodec (.real opened) numbered 0).toOption.bind fun r =>
      (r.1.get jsonCodec (key "db.password") true).toOption) = some (some ⟨"nplain c2", true, false⟩) := by decide +kernel

end Pulumi.ConfigMap
