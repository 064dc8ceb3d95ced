import Verif.Builtin.Model
/-!
# What a reference to another stack gives (C223)
-/
namespace Pulumi.Builtin
open Pulumi.Engine (EV Blob)

/-! ## Specification -/

/-- A value has a secret in it, at any depth -/
inductive HasSecret : EV → Prop
  | secret (e : EV) : HasSecret (.secret e)
  | computed {e : EV} : HasSecret e → HasSecret (.computed e)
  | marked (e : EV) (known : Bool) (deps : List String) : HasSecret (.output e known true deps)
  | within {e : EV} (known s : Bool) (deps : List String) : HasSecret e → HasSecret (.output e known s deps)
  | element {xs : List EV} {x : EV} : x ∈ xs → HasSecret x → HasSecret (.array xs)
  | property {kvs : List (String × EV)} {k : String} {v : EV} : (k, v) ∈ kvs → HasSecret v → HasSecret (.object kvs)

/-- The backend finds a stack of this name, and this is its snapshot -/
def Finds (b : Backend) (name : String) (snap : Option (List Res)) : Prop :=
  ∃ ref s, b.parse name = .ok ref ∧ b.getStack ref = .ok (some s) ∧ b.snapshot s = .ok snap

/-- These are the outputs of a stack with this snapshot: those of its first resource that is a stack, and none where there is no such
resource. -/
def OutputsOf (snap : Option (List Res)) (outs : Map) : Prop :=
  (∃ pre r post, snap = some (pre ++ r :: post) ∧ r.type = "pulumi:pulumi:Stack" ∧ (∀ q ∈ pre, q.type ≠ "pulumi:pulumi:Stack") ∧
      outs = r.outputs) ∨
    ((∀ rs, snap = some rs → ∀ q ∈ rs, q.type ≠ "pulumi:pulumi:Stack") ∧ outs = [])

/-- The names of the secret outputs, in the order a reference gives them -/
structure SecretNames (outs : Map) (names : List String) : Prop where
  exactly : ∀ k, k ∈ names ↔ ∃ v, (k, v) ∈ outs ∧ HasSecret v
  once : names.Nodup
  sorted : names.Pairwise (fun a b => "{" ++ a ++ "}" ≤ "{" ++ b ++ "}")

/-! ## Secrets in a value -/

mutual
theorem contains_of : ∀ v : EV, containsSecrets v = true → HasSecret v
  | .secret e, _ => .secret e
  | .computed e, h => .computed (contains_of e (by simpa [containsSecrets] using h))
  | .output e k s d, h => by
    simp only [containsSecrets, Bool.or_eq_true] at h
    rcases h with h | h
    · subst h; exact .marked e k d
    · exact .within k s d (contains_of e h)
  | .array xs, h => by
    obtain ⟨x, hx, hs⟩ := list_of xs (by simpa [containsSecrets] using h)
    exact .element hx hs
  | .object kvs, h => by
    obtain ⟨k, v, hx, hs⟩ := map_of kvs (by simpa [containsSecrets] using h)
    exact .property hx hs
  | .null, h => by simp [containsSecrets] at h
  | .bool _, h => by simp [containsSecrets] at h
  | .num _, h => by simp [containsSecrets] at h
  | .str _, h => by simp [containsSecrets] at h
  | .blob _, h => by simp [containsSecrets] at h
  | .ref .., h => by simp [containsSecrets] at h
theorem list_of : ∀ xs : List EV, listSecrets xs = true → ∃ x, x ∈ xs ∧ HasSecret x
  | [], h => by simp [listSecrets] at h
  | x :: xs, h => by
    simp only [listSecrets, Bool.or_eq_true] at h
    rcases h with h | h
    · exact ⟨x, by simp, contains_of x h⟩
    · obtain ⟨y, hy, hs⟩ := list_of xs h
      exact ⟨y, by simp [hy], hs⟩
theorem map_of : ∀ kvs : List (String × EV), mapSecrets kvs = true → ∃ k v, (k, v) ∈ kvs ∧ HasSecret v
  | [], h => by simp [mapSecrets] at h
  | (k, v) :: kvs, h => by
    simp only [mapSecrets, Bool.or_eq_true] at h
    rcases h with h | h
    · exact ⟨k, v, by simp, contains_of v h⟩
    · obtain ⟨k', v', hy, hs⟩ := map_of kvs h
      exact ⟨k', v', by simp [hy], hs⟩
end

theorem listSecrets_mem {xs : List EV} {x : EV} (h : x ∈ xs) (hs : containsSecrets x = true) : listSecrets xs = true := by
  induction xs with
  | nil => cases h
  | cons y ys ih =>
    simp only [listSecrets, Bool.or_eq_true]
    rcases List.mem_cons.mp h with h | h
    · subst h; exact .inl hs
    · exact .inr (ih h)

theorem mapSecrets_mem {kvs : List (String × EV)} {k : String} {v : EV} (h : (k, v) ∈ kvs) (hs : containsSecrets v = true) :
    mapSecrets kvs = true := by
  induction kvs with
  | nil => cases h
  | cons y ys ih =>
    obtain ⟨k', v'⟩ := y
    simp only [mapSecrets, Bool.or_eq_true]
    rcases List.mem_cons.mp h with h | h
    · cases h; exact .inl hs
    · exact .inr (ih h)

/-- **C223.** A value is taken to contain a secret exactly where there is one in it, at whatever depth: in an array, an object, an output
or what is not known yet. -/
theorem contains_iff (v : EV) : containsSecrets v = true ↔ HasSecret v := by
  refine ⟨contains_of v, fun h => ?_⟩
  induction h with
  | secret e => rfl
  | computed _ ih => simpa [containsSecrets] using ih
  | marked e k d => simp [containsSecrets]
  | within k s d _ ih => simp [containsSecrets, ih]
  | element hx _ ih => simpa [containsSecrets] using listSecrets_mem hx ih
  | property hx _ ih => simpa [containsSecrets] using mapSecrets_mem hx ih

example : HasSecret (.array [.null, .object [("a", .output (.str "x") true true [])]]) :=
  .element (List.mem_cons_of_mem _ (List.mem_cons_self ..)) (.property (List.mem_cons_self ..) (.marked _ _ _))

/-! ## The names of the secret outputs -/

theorem shown_inj {a b : String} (h : shown a = shown b) : a = b := by
  have h1 : (shown a).toList = (shown b).toList := by rw [h]
  simp [shown, String.toList_append] at h1
  exact String.toList_inj.1 h1

theorem secretNames_perm (outs : Map) :
    (secretNames outs).Perm ((outs.filter (fun kv => containsSecrets kv.2)).map (·.1)) := List.mergeSort_perm _ _

theorem secretNames_sorted (outs : Map) : (secretNames outs).Pairwise (fun a b => shown a ≤ shown b) := by
  have := List.pairwise_mergeSort (le := fun a b => decide (shown a ≤ shown b))
    (by intro a b c h1 h2; simp only [decide_eq_true_eq] at *; exact String.le_trans h1 h2)
    (by intro a b; simp only [Bool.or_eq_true, decide_eq_true_eq]; exact String.le_total _ _)
    ((outs.filter (fun kv => containsSecrets kv.2)).map (·.1))
  exact this.imp (fun h => by simpa using h)

/-- **C223.** The names a reference gives as those of secret outputs are exactly the names of the outputs that contain a secret, each
once, and sorted by the text they are shown as. -/
theorem secret_names (outs : Map) (hk : (outs.map (·.1)).Nodup) : SecretNames outs (secretNames outs) where
  exactly k := by
    rw [(secretNames_perm outs).mem_iff]
    simp only [List.mem_map, List.mem_filter, Prod.exists]
    constructor
    · rintro ⟨k', v, ⟨hm, hs⟩, rfl⟩
      exact ⟨v, hm, (contains_iff v).1 hs⟩
    · rintro ⟨v, hm, hs⟩
      exact ⟨k, v, ⟨hm, (contains_iff v).2 hs⟩, rfl⟩
  once := by
    rw [(secretNames_perm outs).nodup_iff]
    exact hk.sublist (List.filter_sublist.map _)
  sorted := secretNames_sorted outs

/-- **C223.** They are the same whatever the order in which the outputs are gone through, and whatever sorts them: there is one list of
them. -/
theorem secret_names_unique {outs outs' : Map} (hp : outs.Perm outs') {names names' : List String}
    (h : SecretNames outs names) (h' : SecretNames outs' names') : names = names' := by
  have hperm : names.Perm names' := by
    rw [List.perm_ext_iff_of_nodup h.once h'.once]
    intro k
    rw [h.exactly, h'.exactly]
    constructor
    · rintro ⟨v, hm, hs⟩; exact ⟨v, hp.mem_iff.1 hm, hs⟩
    · rintro ⟨v, hm, hs⟩; exact ⟨v, hp.mem_iff.2 hm, hs⟩
  refine hperm.eq_of_pairwise (le := fun a b => shown a ≤ shown b) ?_ h.sorted h'.sorted
  intro a b _ _ h1 h2
  exact shown_inj (String.le_antisymm h1 h2)

/-- Whatever the order of the outputs, a reference gives the same list -/
theorem secret_names_order {outs outs' : Map} (hp : outs.Perm outs') (hk : (outs.map (·.1)).Nodup) :
    secretNames outs = secretNames outs' :=
  secret_names_unique hp (secret_names outs hk) (secret_names outs' ((hp.map _).nodup_iff.1 hk))

example : SecretNames [("b", .secret .null), ("x", .num 1), ("a", .array [.secret .null])] ["a", "b"] where
  exactly k := by
    simp only [List.mem_cons, List.not_mem_nil, or_false, Prod.mk.injEq]
    constructor
    · rintro (rfl | rfl)
      · exact ⟨_, .inr (.inr ⟨rfl, rfl⟩), .element (x := .secret .null) (by simp) (.secret _)⟩
      · exact ⟨_, .inl ⟨rfl, rfl⟩, .secret _⟩
    · rintro ⟨v, ⟨rfl, -⟩ | ⟨rfl, rfl⟩ | ⟨rfl, -⟩, hs⟩
      · exact .inr rfl
      · cases hs
      · exact .inl rfl
  once := by decide
  sorted := by decide

/-- Of two names one of which begins with the other, the longer may come first: the names are compared with the braces they are shown
in. -/
theorem names_not_in_their_order : ¬ SecretNames [("a", .secret .null), ("ab", .secret .null)] ["a", "ab"] := by
  intro h
  have := h.sorted
  simp only [List.pairwise_cons, List.mem_singleton, forall_eq] at this
  exact absurd this.1 (by decide)

/-! ## What is asked of the backend -/

theorem snapshotOf_ok {b : Backend} {name : String} {snap : Option (List Res)} :
    snapshotOf b name = .ok snap ↔ Finds b name snap := by
  simp only [snapshotOf, Finds]
  constructor
  · intro h
    split at h
    · cases h
    · rename_i ref hp
      split at h
      · cases h
      · cases h
      · rename_i s hg
        split at h
        · cases h
        · rename_i sn hs
          cases h
          exact ⟨ref, s, hp, hg, hs⟩
  · rintro ⟨ref, s, hp, hg, hs⟩
    simp [hp, hg, hs]

theorem snapshotOf_no_crash (b : Backend) (name : String) : snapshotOf b name ≠ .error .crash := by
  simp only [snapshotOf]
  split
  · simp
  · split
    · simp
    · simp
    · split <;> simp

theorem rootStack_outputs (snap : Option (List Res)) (outs : Map) :
    (match rootStack snap with | none => [] | some r => r.outputs) = outs ↔ OutputsOf snap outs := by
  cases snap with
  | none => simp [rootStack, OutputsOf, eq_comm]
  | some rs =>
    simp only [rootStack]
    cases hf : rs.find? (fun r => r.type == rootStackType) with
    | none =>
      have hn : ∀ q ∈ rs, q.type ≠ "pulumi:pulumi:Stack" := by simpa [rootStackType] using hf
      constructor
      · intro h; exact .inr ⟨fun rs' e => by cases e; exact hn, h.symm⟩
      · rintro (⟨pre, r, post, e, ht, -, -⟩ | ⟨-, h⟩)
        · cases e; exact absurd ht (hn r (by simp))
        · exact h.symm
    | some r =>
      obtain ⟨ht, pre, post, rfl, hpre⟩ := List.find?_eq_some_iff_append.1 hf
      have ht : r.type = "pulumi:pulumi:Stack" := by simpa [rootStackType] using ht
      have hpre : ∀ q ∈ pre, q.type ≠ "pulumi:pulumi:Stack" := by simpa [rootStackType] using hpre
      constructor
      · intro h; exact .inl ⟨pre, r, post, rfl, ht, hpre, h.symm⟩
      · rintro (⟨pre', r', post', e, ht', hpre', ho⟩ | ⟨h, -⟩)
        · have e : pre ++ r :: post = pre' ++ r' :: post' := by simpa using e
          rw [List.append_eq_append_iff] at e
          rcases e with ⟨as, h1, h2⟩ | ⟨as, h1, h2⟩
          · cases as with
            | nil => simp at h2; rw [ho, h2.1]
            | cons a as =>
              simp at h2
              exact absurd ht (hpre' r (by rw [h1, h2.1]; simp))
          · cases as with
            | nil => simp at h2; rw [ho, h2.1]
            | cons a as =>
              simp at h2
              exact absurd ht' (hpre r' (by rw [h1, h2.1]; simp))
        · exact absurd ht (h _ rfl r (by simp))

theorem stackOutputs_ok {b : Backend} {name : String} {outs : Map} :
    stackOutputs b name = .ok outs ↔ ∃ snap, Finds b name snap ∧ OutputsOf snap outs := by
  simp only [stackOutputs]
  constructor
  · intro h
    split at h
    · cases h
    · rename_i snap hs
      refine ⟨snap, snapshotOf_ok.1 hs, (rootStack_outputs snap outs).1 ?_⟩
      split at h <;> simp_all
  · rintro ⟨snap, hf, ho⟩
    rw [snapshotOf_ok.2 hf]
    have := (rootStack_outputs snap outs).2 ho
    simp only
    split <;> simp_all

theorem stackOutputs_no_crash (b : Backend) (name : String) : stackOutputs b name ≠ .error .crash := by
  simp only [stackOutputs]
  split
  · rename_i e h; intro hc; cases hc; exact snapshotOf_no_crash b name h
  · split <;> simp

/-! ## References -/

/-- **C223.** A reference to a stack is created, with what it is to have, exactly where its name is a string and the backend finds a stack
of that name: it then has that name, the outputs of that stack and no others, and the names of those that contain secrets. Its identifier
is new, and empty in a preview. -/
theorem create_iff {client : Option Backend} {inputs st : Map} {preview : Bool} {uuid id : String} :
    create client "pulumi:pulumi:StackReference" inputs preview uuid = .ok (id, st) ↔
      ∃ name b snap outs, inputs.lookup "name" = some (.str name) ∧ client = some b ∧ Finds b name snap ∧ OutputsOf snap outs ∧
        id = (if preview = true then "" else uuid) ∧
        st = [("name", .str name), ("outputs", .object outs), ("secretOutputNames", .array ((secretNames outs).map .str))] := by
  simp only [create, stackReferenceType, readStackReference, ne_eq, not_true_eq_false, if_false]
  constructor
  · intro h
    split at h
    · cases h
    · rename_i st' hr
      split at hr
      · rename_i name hn
        split at hr
        · cases hr
        · rename_i b
          split at hr
          · cases hr
          · rename_i outs ho
            obtain ⟨snap, hf, hout⟩ := stackOutputs_ok.1 ho
            cases hr; cases h
            exact ⟨name, b, snap, outs, hn, rfl, hf, hout, rfl, rfl⟩
      · cases hr
  · rintro ⟨name, b, snap, outs, hn, rfl, hf, ho, rfl, rfl⟩
    simp only [hn, stackOutputs_ok.2 ⟨snap, hf, ho⟩]

/-- **C223.** So it has, for a backend whose maps of outputs have each key once, the names of exactly the outputs with a secret in them. -/
theorem create_names {b : Backend} {inputs st : Map} {preview : Bool} {uuid id : String}
    (hb : ∀ s rs, b.snapshot s = .ok (some rs) → ∀ r ∈ rs, (r.outputs.map (·.1)).Nodup)
    (h : create (some b) "pulumi:pulumi:StackReference" inputs preview uuid = .ok (id, st)) :
    ∃ name snap outs names, inputs.lookup "name" = some (.str name) ∧ Finds b name snap ∧ OutputsOf snap outs ∧ SecretNames outs names ∧
      st = [("name", .str name), ("outputs", .object outs), ("secretOutputNames", .array (names.map .str))] := by
  obtain ⟨name, b', snap, outs, hn, hc, hf, ho, -, rfl⟩ := create_iff.1 h
  cases hc
  refine ⟨name, snap, outs, _, hn, hf, ho, secret_names outs ?_, rfl⟩
  obtain ⟨ref, s, -, -, hs⟩ := hf
  rcases ho with ⟨pre, r, post, rfl, -, -, rfl⟩ | ⟨-, rfl⟩
  · exact hb s _ hs r (by simp)
  · simp

/-- **C223.** A reference with a string for a name never ends the engine's process, whatever the backend answers. -/
theorem create_no_crash {client : Option Backend} {inputs : Map} {preview : Bool} {uuid name : String}
    (h : inputs.lookup "name" = some (.str name)) :
    create client "pulumi:pulumi:StackReference" inputs preview uuid ≠ .error .crash := by
  simp only [create, stackReferenceType, readStackReference, ne_eq, not_true_eq_false, if_false, h]
  cases client with
  | none => simp
  | some b =>
    cases hs : stackOutputs b name with
    | error e =>
      intro hc
      simp only [hs, Except.error.injEq] at hc
      subst hc
      exact stackOutputs_no_crash b name hs
    | ok outs => simp [hs]

/-- **C223.** Where the backend answers with an error, or knows no such stack, that is the error of the reference: nothing is created. -/
theorem create_unknown {b : Backend} {inputs : Map} {preview : Bool} {uuid name ref : String}
    (h : inputs.lookup "name" = some (.str name)) (hp : b.parse name = .ok ref) (hg : b.getStack ref = .ok none) :
    create (some b) "pulumi:pulumi:StackReference" inputs preview uuid = .error (.error s!"unknown stack {name.quote}") := by
  simp [create, stackReferenceType, readStackReference, stackOutputs, snapshotOf, h, hp, hg]

/-- **C223.** Reading a reference gives the outputs its stack has now: the same as creating one with the name in its state. -/
theorem read_iff {client : Option Backend} {urn id : String} {inputs state i o : Map} (hu : urn ≠ "") (hi : id ≠ "") :
    read client urn "pulumi:pulumi:StackReference" id inputs state = .ok (i, o) ↔
      i = inputs ∧ create client "pulumi:pulumi:StackReference" state true "" = .ok ("", o) := by
  simp only [read, create, stackReferenceType, hu, hi, ne_eq, not_true_eq_false, or_self, if_false, if_true]
  cases readStackReference client state with
  | error e => simp
  | ok outs => simp [eq_comm]

/-- a backend with one stack -/
def oneStack (snap : Option (List Res)) : Backend where
  parse n := .ok n
  getStack r := .ok (if r = "org/proj/dev" then some r else none)
  snapshot _ := .ok snap

example : Finds (oneStack none) "org/proj/dev" none := ⟨_, _, rfl, rfl, rfl⟩

example : ∃ st, create (some (oneStack (some [⟨"u", "a:b:C", [("z", .null)], false⟩,
      ⟨"s", "pulumi:pulumi:Stack", [("k", .secret (.str "x")), ("p", .num 1)], false⟩])))
    "pulumi:pulumi:StackReference" [("name", .str "org/proj/dev")] false "id-1" = .ok ("id-1", st) :=
  ⟨_, create_iff.2 ⟨_, _, _, _, rfl, rfl, ⟨_, _, rfl, rfl, rfl⟩,
    .inl ⟨[_], _, [], rfl, rfl, by simp, rfl⟩, rfl, rfl⟩⟩

/-! ## The inputs of a reference -/

/-- **C223.** The inputs of a reference are accepted, as they are, exactly where `name` is their only property and is a string or not
known yet. -/
theorem check_accepts_iff {inputs m : Map} :
    check "pulumi:pulumi:StackReference" inputs = .ok (.accepted m) ↔
      m = inputs ∧ (∀ kv ∈ inputs, kv.1 = "name") ∧
        ∃ v, inputs.lookup "name" = some v ∧ ((∃ s, v = .str s) ∨ ∃ e, v = .computed e) := by
  have hst : stranger inputs = none ↔ ∀ kv ∈ inputs, kv.1 = "name" := by
    simp [stranger, List.find?_eq_none]
  rw [← hst]
  simp only [check, stackReferenceType, ne_eq, not_true_eq_false, if_false]
  cases stranger inputs with
  | some k => simp
  | none =>
    cases inputs.lookup "name" with
    | none => simp
    | some v => cases v <;> simp [eq_comm]

/-- **C223.** What is refused is refused for a property at fault: one that is not `name`, or `name` where it is missing or is not a
string. -/
theorem check_refuses {inputs : Map} {p r : String} (h : check "pulumi:pulumi:StackReference" inputs = .ok (.refused p r)) :
    (p ≠ "name" ∧ p ∈ inputs.map (·.1)) ∨
      (p = "name" ∧ (∀ s, inputs.lookup "name" ≠ some (.str s)) ∧ ∀ e, inputs.lookup "name" ≠ some (.computed e)) := by
  simp only [check, stackReferenceType, ne_eq, not_true_eq_false, if_false] at h
  cases hs : stranger inputs with
  | some k =>
    rw [hs] at h
    simp only [Except.ok.injEq, Checked.refused.injEq] at h
    obtain ⟨rfl, -⟩ := h
    have h1 := List.find?_some hs
    have h2 := List.mem_of_find?_eq_some hs
    exact .inl ⟨by simpa using h1, h2⟩
  | none =>
    rw [hs] at h
    right
    cases hn : inputs.lookup "name" with
    | none => rw [hn] at h; simp at h; exact ⟨h.1.symm, by simp, by simp⟩
    | some v => rw [hn] at h; cases v <;> simp at h <;> exact ⟨h.1.symm, by simp, by simp⟩

/-- **C223.** A resource of another type is refused with an error, and there is an answer for every other. -/
theorem check_type (typ : String) (inputs : Map) :
    (∃ e, check typ inputs = .error e) ↔ typ ≠ "pulumi:pulumi:StackReference" := by
  by_cases h : typ = "pulumi:pulumi:StackReference"
  · subst h
    simp only [check, stackReferenceType, ne_eq, not_true_eq_false, if_false]
    cases stranger inputs with
    | some k => simp
    | none =>
      cases inputs.lookup "name" with
      | none => simp
      | some v => cases v <;> simp
  · simp [check, stackReferenceType, h]

/-- A secret name is refused -/
example : check "pulumi:pulumi:StackReference" [("name", .secret (.str "a"))] = .ok (.refused "name" "property \"name\" must be a string") := rfl

/-- **C223, what is wrong.** A name that is not known yet is accepted, and ends the engine's process when the reference is created, in a
preview as well: the full claim, that what is accepted does not end the process, is false. -/
theorem unknown_name_ends_the_engine (client : Option Backend) (e : EV) (preview : Bool) (uuid : String) :
    check "pulumi:pulumi:StackReference" [("name", .computed e)] = .ok (.accepted [("name", .computed e)]) ∧
      create client "pulumi:pulumi:StackReference" [("name", .computed e)] preview uuid = .error .crash := ⟨rfl, rfl⟩

/-- **C223.** It is the only case: of what is accepted, only a name that is not known yet ends the process. -/
theorem accepted_crash_iff {client : Option Backend} {inputs m : Map} {preview : Bool} {uuid : String}
    (h : check "pulumi:pulumi:StackReference" inputs = .ok (.accepted m)) :
    create client "pulumi:pulumi:StackReference" m preview uuid = .error .crash ↔ ∃ e, m.lookup "name" = some (.computed e) := by
  obtain ⟨rfl, -, v, hv, ⟨s, rfl⟩ | ⟨e, rfl⟩⟩ := check_accepts_iff.1 h
  · constructor
    · intro hc; exact absurd hc (create_no_crash hv)
    · rintro ⟨e, he⟩; rw [hv] at he; cases he
  · constructor
    · intro _; exact ⟨e, hv⟩
    · intro _; simp [create, stackReferenceType, readStackReference, hv]

/-! ## Changes of a reference -/

/-- **C223.** Between two string names a reference is replaced exactly where the name changed, for that key, and nothing else of it makes
a difference; it is never updated. -/
theorem diff_iff (hash : Blob → Option String) {state inputs : Map} {old new : String}
    (ho : state.lookup "name" = some (.str old)) (hn : inputs.lookup "name" = some (.str new)) :
    diff hash "pulumi:pulumi:StackReference" state inputs = .ok (if old = new then [] else ["name"]) := by
  simp only [diff, stackReferenceType, nameOf, ho, hn, Option.getD_some, Props.deepEq, ne_eq, not_true_eq_false, if_false]
  by_cases h : old = new
  · simp [h]
  · have : ¬ new = old := fun e => h e.symm
    simp [h, this]

/-- A name not known yet calls for a replacement -/
theorem diff_unknown (hash : Blob → Option String) {state inputs : Map} {old : String} {e : EV}
    (ho : state.lookup "name" = some (.str old)) (hn : inputs.lookup "name" = some (.computed e)) :
    diff hash "pulumi:pulumi:StackReference" state inputs = .ok ["name"] := by
  simp [diff, stackReferenceType, nameOf, ho, hn, Props.deepEq]

example (hash : Blob → Option String) : diff hash "pulumi:pulumi:StackReference" [("name", .str "a"), ("outputs", .object [])] [("name", .str "b")] = .ok ["name"] :=
  diff_iff hash (old := "a") (new := "b") rfl rfl

/-! ## The functions of the provider -/

theorem lookup_put (m : Map) (k k' : String) (v : EV) : (put m k v).lookup k' = if k' = k then some v else m.lookup k' := by
  induction m with
  | nil =>
    by_cases h : k' = k
    · simp [put, h]
    · simp [put, List.lookup_cons, h, beq_eq_false_iff_ne.2 h]
  | cons x xs ih =>
    obtain ⟨a, w⟩ := x
    simp only [put]
    by_cases ha : a = k
    · subst ha
      by_cases h : k' = a
      · simp [h]
      · simp [List.lookup_cons, h, beq_eq_false_iff_ne.2 h]
    · rw [if_neg ha]
      by_cases h : k' = a
      · subst h; simp [ha]
      · simp only [List.lookup_cons, beq_eq_false_iff_ne.2 h, ih]

/-- the last of these resources with this URN that is not to be deleted -/
def lastLive (rs : List Res) (urn : String) : Option Res := (rs.filter (fun r => !r.delete && r.urn == urn)).getLast?

theorem resourceLoop_lookup (m : Map) (rs : List Res) (urn : String) :
    (resourceLoop m rs).lookup urn = ((lastLive rs urn).map described).or (m.lookup urn) := by
  induction rs generalizing m with
  | nil => simp [resourceLoop, lastLive]
  | cons r rs ih =>
    simp only [resourceLoop]
    by_cases hd : r.delete = true
    · rw [if_pos hd, ih]; simp [lastLive, hd]
    · rw [if_neg hd, ih, lookup_put]
      by_cases hu : urn = r.urn
      · subst hu
        have : lastLive (r :: rs) r.urn = some ((lastLive rs r.urn).getD r) := by
          simp [lastLive, hd, List.getLast?_cons]
        rw [this]
        cases lastLive rs r.urn <;> simp
      · have hb : ¬ r.urn = urn := fun e => hu e.symm
        simp [lastLive, hu, hb]

/-- **C223.** Asked for the outputs of the resources of a stack, the engine says of each resource of the stack's snapshot that does not wait
to be deleted its type and its outputs, under its URN, and says nothing of any other. -/
theorem resource_outputs {b : Backend} {name : String} {rs : List Res} (h : Finds b name (some rs)) :
    ∃ outs, invoke (some b) (fun _ => none) "pulumi:pulumi:readStackResourceOutputs" [("stackName", .str name)] =
        .ok [("name", .str name), ("outputs", .object outs)] ∧
      (∀ urn, (outs.lookup urn).isSome = true ↔ ∃ r ∈ rs, r.urn = urn ∧ r.delete = false) ∧
      ∀ pre r post, rs = pre ++ r :: post → r.delete = false → (∀ q ∈ post, q.urn = r.urn → q.delete = true) →
        outs.lookup r.urn = some (.object [("type", .str r.type), ("outputs", .object r.outputs)]) := by
  refine ⟨resourceLoop [] rs, ?_, ?_, ?_⟩
  · simp [invoke, readStackResourceOutputs, stackResourceOutputs, snapshotOf_ok.2 h]
  · intro urn
    rw [resourceLoop_lookup]
    simp only [List.lookup_nil, Option.or_none, Option.isSome_map, lastLive]
    rw [Option.isSome_iff_ne_none, ne_eq, List.getLast?_eq_none_iff, List.filter_eq_nil_iff]
    simp [and_comm]
  · rintro pre r post rfl hd hp
    rw [resourceLoop_lookup]
    have : post.filter (fun q => !q.delete && q.urn == r.urn) = [] := by
      simp only [List.filter_eq_nil_iff, Bool.and_eq_true, Bool.not_eq_true', beq_iff_eq, not_and]
      intro q hq h1 h2
      rw [hp q hq h2] at h1; cases h1
    have : lastLive (pre ++ r :: post) r.urn = some r := by
      simp [lastLive, List.filter_append, hd, this]
    simp [this, described]

/-- **C223, what is wrong.** Of a stack that was never updated, and so has no snapshot, a reference has no outputs; but asking for the
outputs of its resources ends the engine's process. -/
theorem new_stack_ends_the_engine {b : Backend} {name : String} (rs : Registered) (h : Finds b name none) :
    (∃ st, invoke (some b) rs "pulumi:pulumi:readStackOutputs" [("name", .str name)] = .ok st ∧ st.lookup "outputs" = some (.object [])) ∧
      invoke (some b) rs "pulumi:pulumi:readStackResourceOutputs" [("stackName", .str name)] = .error .crash := by
  constructor
  · refine ⟨[("name", .str name), ("outputs", .object []), ("secretOutputNames", .array [])], ?_, ?_⟩
    · simp [invoke, readStackReference, stackOutputs, snapshotOf_ok.2 h, rootStack, secretNames]
    · rfl
  · simp [invoke, readStackResourceOutputs, stackResourceOutputs, snapshotOf_ok.2 h]

/-- **C223.** Asked for a resource by its URN, the engine answers for exactly the resources registered in this deployment, with their
identifier and outputs. -/
theorem get_resource_iff {client : Option Backend} {rs : Registered} {args m : Map} {urn : String}
    (h : args.lookup "urn" = some (.str urn)) :
    invoke client rs "pulumi:pulumi:getResource" args = .ok m ↔
      ∃ id outs, rs urn = some (id, outs) ∧ m = [("urn", .str urn), ("id", .str id), ("state", .object outs)] := by
  simp [invoke, getResource, h]
  cases rs urn with
  | none => simp
  | some p =>
    obtain ⟨id, outs⟩ := p
    simp only [Except.ok.injEq, Option.some.injEq, Prod.mk.injEq]
    constructor
    · rintro rfl; exact ⟨id, outs, ⟨rfl, rfl⟩, rfl⟩
    · rintro ⟨_, _, ⟨rfl, rfl⟩, rfl⟩; rfl

/-- One that is not registered is an error -/
theorem get_resource_unknown {client : Option Backend} {rs : Registered} {args : Map} {urn : String}
    (h : args.lookup "urn" = some (.str urn)) (hr : rs urn = none) :
    invoke client rs "pulumi:pulumi:getResource" args = .error (.error s!"unknown resource {urn}") := by
  simp [invoke, getResource, h, hr]

/-- **C223, what is wrong.** A call of one of these functions without its argument, or with one that is not a string, such as one not known
yet, ends the engine's process, though any program may make it. -/
theorem bad_argument_ends_the_engine (client : Option Backend) (rs : Registered) (args : Map) {tok key : String}
    (ht : (tok, key) ∈ [("pulumi:pulumi:readStackOutputs", "name"), ("pulumi:pulumi:readStackResourceOutputs", "stackName"), ("pulumi:pulumi:getResource", "urn")])
    (h : ∀ s, args.lookup key ≠ some (.str s)) : invoke client rs tok args = .error .crash := by
  simp only [List.mem_cons, Prod.mk.injEq, List.not_mem_nil, or_false] at ht
  rcases ht with ⟨rfl, rfl⟩ | ⟨rfl, rfl⟩ | ⟨rfl, rfl⟩
  · simp only [invoke, if_true, readStackReference]
  · simp only [invoke, if_true, readStackResourceOutputs, String.reduceEq, if_false]
  · simp only [invoke, if_true, getResource, String.reduceEq, if_false]

/-- Any other function is refused with an error -/
theorem invoke_unknown {client : Option Backend} {rs : Registered} {args : Map} {tok : String}
    (h1 : tok ≠ "pulumi:pulumi:readStackOutputs") (h2 : tok ≠ "pulumi:pulumi:readStackResourceOutputs") (h3 : tok ≠ "pulumi:pulumi:getResource") :
    invoke client rs tok args = .error (.error s!"unrecognized function name: '{tok}'") := by
  simp [invoke, h1, h2, h3]

/-- **C223.** The function that reads a stack gives what a reference to it has. -/
theorem read_outputs_as_create {client : Option Backend} {rs : Registered} {args m : Map} :
    invoke client rs "pulumi:pulumi:readStackOutputs" args = .ok m ↔
      create client "pulumi:pulumi:StackReference" args true "" = .ok ("", m) := by
  simp only [invoke, create, stackReferenceType, ne_eq, not_true_eq_false, if_false, if_true]
  cases readStackReference client args <;> simp

example : Finds (oneStack (some [⟨"u", "a:b:C", [], true⟩, ⟨"v", "a:b:C", [], false⟩])) "org/proj/dev"
    (some [⟨"u", "a:b:C", [], true⟩, ⟨"v", "a:b:C", [], false⟩]) := ⟨_, _, rfl, rfl, rfl⟩

end Pulumi.Builtin
