import Verif.Engine.Shown
import Verif.Engine.Theorems
/-! # What programs see of the engine's answers (C130) -/
namespace Pulumi.Engine

open Wire (Env PV ResId W des deserializeProperties)

/-! ## C130 -/

/-- **C130.** What the engine answers is written and read by the program as specified: secrets as marked, and no other
value is. -/
theorem answer_seen {env : Env} {a r keep : Bool} {e : EV} {b : Bool} {v : PV} (h : Shown env a r keep e b v) :
    ∃ w, marshal (answering a r) e = .ok (some w) ∧
      des env keep w = .ok (if b then .dict [("4dabf18193072939515e22adb298388d", .str "1b47061264138c4ac30d75fd1eb44270"),
        ("value", v)] else v) := by
  obtain ⟨w, h1, h2, _⟩ := seen h
  exact ⟨w, h1, h2⟩

/-- **C130**: the program sees one thing. -/
theorem shown_unique {env : Env} {a r keep : Bool} {e : EV} {b b' : Bool} {v v' : PV} (h : Shown env a r keep e b v)
    (h' : Shown env a r keep e b' v') : b = b' ∧ v = v' := by
  obtain ⟨w, h1, h2, h3⟩ := seen h
  obtain ⟨w', h1', h2', h3'⟩ := seen h'
  rw [h1] at h1'
  cases h1'
  rw [h2] at h2'
  simp only [Except.ok.injEq] at h2'
  constructor
  · rw [← secret_marked (b := b) h3, ← secret_marked (b := b') h3', h2']
  · rw [← unwrap_marked (b := b) h3, ← unwrap_marked (b := b') h3', h2']

theorem choose_list {α β : Type} {P : α → β → Prop} {xs : List α} (h : ∀ x ∈ xs, ∃ y, P x y) :
    ∃ ys : List β, xs.length = ys.length ∧ ∀ q ∈ xs.zip ys, P q.1 q.2 := by
  induction xs with
  | nil => exact ⟨[], rfl, by simp⟩
  | cons x xs ih =>
    obtain ⟨y, hy⟩ := h x (List.mem_cons_self ..)
    obtain ⟨ys, hl, hys⟩ := ih fun z hz => h z (List.mem_cons_of_mem _ hz)
    refine ⟨y :: ys, by simp [hl], ?_⟩
    intro q hq
    rw [List.zip_cons_cons, List.mem_cons] at hq
    rcases hq with rfl | hq
    · exact hy
    · exact hys q hq

theorem blob_shown {b : Blob} (h : SoundBlob b) : ∃ v, ShownBlob b v := by
  induction h with
  | @asset h t p u hne =>
    by_cases hp : p = ""
    · subst hp
      by_cases ht : t = ""
      · subst ht
        exact ⟨_, .remote (by simpa using hne)⟩
      · exact ⟨_, .text ht⟩
    · exact ⟨_, .file hp⟩
  | @archive h p u hne =>
    by_cases hp : p = ""
    · subst hp
      exact ⟨_, .remoteArchive (by simpa using hne)⟩
    · exact ⟨_, .fileArchive hp⟩
  | @assets h p u ms hk _ ih =>
    obtain ⟨vs, hl, hv⟩ := choose_list (P := fun (m : String × Blob) v => ShownBlob m.2 v) ih
    exact ⟨_, .assets hl hk hv⟩

/-- **C130**: and it sees something of everything that the engine may answer with. -/
theorem answers_shown (env : Env) (a : Bool) {r : Bool} {e : EV} (h : Answerable r e) :
    ∀ keep, ∃ b v, Shown env a r keep e b v := by
  induction h with
  | null => exact fun _ => ⟨_, _, .null⟩
  | bool b => exact fun _ => ⟨_, _, .bool b⟩
  | num n => exact fun _ => ⟨_, _, .num n⟩
  | str hs => exact fun _ => ⟨_, _, .str hs⟩
  | computed => exact fun _ => ⟨_, _, .computed⟩
  | secret _ ih => exact fun keep => secret_shown ih keep
  | array _ ih =>
    intro keep
    obtain ⟨rs, hl, hr⟩ := choose_list (P := fun e (q : Bool × PV) => Shown env a r keep e q.1 q.2) fun e he => by
      obtain ⟨b, v, h⟩ := ih e he keep
      exact ⟨(b, v), h⟩
    exact ⟨_, _, .array hl hr⟩
  | object hk _ ih =>
    intro keep
    obtain ⟨rs, hl, hr⟩ := choose_list (P := fun (kv : String × EV) (q : Bool × PV) => Shown env a r keep kv.2 q.1 q.2)
      fun kv hkv => by
        obtain ⟨b, v, h⟩ := ih kv hkv keep
        exact ⟨(b, v), h⟩
    exact ⟨_, _, .object hl hk hr rfl⟩
  | @output e s deps _ ih =>
    intro keep
    cases s with
    | false =>
      obtain ⟨b, v, h⟩ := ih keep
      exact ⟨_, _, .output (by simpa using h)⟩
    | true =>
      obtain ⟨b, v, h⟩ := secret_shown ih keep
      exact ⟨_, _, .output (by simpa using h)⟩
  | @unknownOutput e s deps =>
    intro keep
    cases s with
    | false => exact ⟨_, _, .unknownOutput .computed⟩
    | true =>
      obtain ⟨b, v, h⟩ := secret_shown (env := env) (a := a) (r := r) (fun keep => ⟨_, _, .computed (s := "")⟩) keep
      exact ⟨_, _, .unknownOutput (by simpa using h)⟩
  | @ref urn id version hp hu h0 hid =>
    intro keep
    have hb : ∃ c, r = true → Builds env urn version c := by
      cases r with
      | false => exact ⟨none, by simp⟩
      | true =>
        obtain ⟨parts, hparts⟩ := hp rfl
        exact ⟨_, fun _ => ⟨parts, hparts, rfl⟩⟩
    obtain ⟨c, hc⟩ := hb
    have key : (r = true → Builds env urn version none) → ∃ b v, Shown env a r keep (.ref urn id version) b v := by
      intro hn
      cases id with
      | none => exact ⟨_, _, .component hn (fun _ => hu)⟩
      | known s => exact ⟨_, _, .custom hn (by simpa using h0) (by simpa using hid)⟩
      | unknown => exact ⟨_, _, .pending hn⟩
    cases c with
    | none => exact key hc
    | some c =>
      cases hr : r with
      | false => rw [hr] at key; exact key (by simp)
      | true => exact ⟨_, _, .resource rfl (hc hr)⟩
  | blob hb =>
    intro keep
    obtain ⟨v, hv⟩ := blob_shown hb
    exact ⟨_, _, .blob hv⟩
where
  secret_shown {env : Env} {a r : Bool} {e : EV} (ih : ∀ keep, ∃ b v, Shown env a r keep e b v) (keep : Bool) :
      ∃ b v, Shown env a r keep (.secret e) b v := by
    cases a with
    | true =>
      obtain ⟨b, v, h⟩ := ih false
      exact ⟨_, _, .secret rfl h⟩
    | false =>
      obtain ⟨b, v, h⟩ := ih keep
      exact ⟨_, _, .revealed rfl h⟩

/-- **C130**, for a response: of the properties that the engine returns the program sees those that are not hidden, unless
it asks for all, and not null, each with a mark of its own if it is secret. -/
theorem response_seen {env : Env} {a r keep : Bool} (all : Bool) {kvs : List (String × EV)} {rs : List (Bool × PV)}
    (hl : kvs.length = rs.length) (hk : ∀ kv ∈ kvs, kv.1 ≠ reservedKey)
    (h : ∀ q ∈ kvs.zip rs, Shown env a r keep q.1.2 q.2.1 q.2.2) :
    ∃ ws, marshalKvs (answering a r) kvs = .ok ws ∧
      deserializeProperties env keep all ws = .ok (.dict
        (((kvs.zip rs).filter fun q => (all || !hidden q.1.1) && (q.2.1 || !Wire.isNone q.2.2)).map fun q => (q.1.1,
          if q.2.1 then .dict [("4dabf18193072939515e22adb298388d", .str "1b47061264138c4ac30d75fd1eb44270"),
            ("value", q.2.2)] else q.2.2))) := by
  obtain ⟨ws, h1, h2, h3, _⟩ := seen_kvs all hl fun q hq => seen (h q hq)
  refine ⟨ws, h1, ?_⟩
  have hs : ws.lookup Wire.sigKey = none := by
    apply Wire.lookup_none
    rw [h2]
    intro hm
    obtain ⟨m, hm, he⟩ := List.mem_map.1 hm
    exact hk m hm he
  simp only [deserializeProperties, Wire.desStruct, hs, h3, Except.map]
  rfl

/-- **C130**, negation: an unknown value that is known to be something else than a string is seen as a string, the
engine's mark for unknowns of its kind. -/
theorem unknown_seen_as_text (env : Env) (a r keep : Bool) {e : EV} {s : String}
    (h : (∃ b, e = .bool b ∧ s = "1c4a061d-8072-4f0a-a4cb-0ff528b18fe7") ∨
      (∃ n, e = .num n ∧ s = "3eeb2bf0-c639-47a8-9e75-3b44932eb421") ∨
      (∃ xs, e = .array xs ∧ s = "6a19a0b0-7e62-4c92-b797-7f8e31da9cc2") ∨
      (∃ kvs, e = .object kvs ∧ s = "dd056dcd-154b-4c76-9bd3-c8f88648b5ff")) :
    marshal (answering a r) (.computed e) = .ok (some (.str s)) ∧ des env keep (.str s) = .ok (.str s) := by
  rcases h with ⟨_, rfl, rfl⟩ | ⟨_, rfl, rfl⟩ | ⟨_, rfl, rfl⟩ | ⟨_, rfl, rfl⟩ <;>
    exact ⟨rfl, by rw [des, Wire.desStr_keep (by decide)]⟩

/-- **C130**, negation: a text asset whose text is empty makes the program fail. -/
theorem empty_asset_fails (env : Env) (a r keep : Bool) (hash : String) :
    ∃ w, marshal (answering a r) (.blob (.asset hash "" "" "")) = .ok (some w) ∧ des env keep w = .error .assertion := by
  refine ⟨_, rfl, ?_⟩
  simp only [marshalBlob, List.append_assoc, List.cons_append, List.nil_append]
  have h1 : ∀ k, k ≠ sigKey → k ≠ "hash" → ((sigKey, W.str assetSig) ::
      (textField "hash" hash ++ (textField "text" "" ++ (textField "path" "" ++ textField "uri" "")))).lookup k = none := by
    intro k h1 h2
    rw [lookup_cons_ne h1, lookup_textField_ne h2]
    rfl
  have h2 : ((sigKey, W.str assetSig) ::
      (textField "hash" hash ++ (textField "text" "" ++ (textField "path" "" ++ textField "uri" "")))).lookup Wire.sigKey =
      some (.str assetSig) := List.lookup_cons_self
  have h3 : assetSig = Wire.assetSig := rfl
  simp only [des, Wire.desStruct, h2, if_pos h3, Wire.desAsset, h1 "path" (by decide) (by decide),
    h1 "text" (by decide) (by decide), h1 "uri" (by decide) (by decide)]
  rfl

/-- **C130**, negation: which is what comes back when a program passes an empty text. -/
theorem empty_text_comes_back {env : Env} {o : Opts} (ho : Reads o) (t : Wire.Ty) (a r keep : Bool) :
    ∃ x d w e w', Wire.ser env false t (.asset .text "") = .ok (x, d) ∧ Wire.toWire x = some w ∧
      unmarshal o w = .ok (some e) ∧ marshal (answering a r) e = .ok (some w') ∧ des env keep w' = .error .assertion := by
  obtain ⟨x, d, w, e, h1, h2, h3, h4⟩ := engine_reads (env := env) ho (keep := false) (by simp) (t := t)
    (.asset .text (s := "") (by decide))
  cases h4
  obtain ⟨w', h5, h6⟩ := empty_asset_fails env a r keep ""
  exact ⟨x, d, w, _, w', h1, h2, h3, h5, h6⟩

/-! ### Instances -/

/-- Outputs with a secret in a list, a null, a hidden name, an unknown and an archive. -/
def sampleAnswer : List (String × EV) :=
  [("keys", .array [.secret (.str "k1"), .str "k2"]), ("none", .null), ("__defaults", .array []),
   ("later", .computed (.str "")), ("code", .blob (.assets "h" [("a", .asset "h1" "x" "" "")] "" "")),
   ("bucket", .ref "urn:pulumi:s::p::t:m:T::a" (.known "id0") "")]

/-- Non-trivial instance. -/
example : ∃ ws, marshalKvs (answering true true) sampleAnswer = .ok ws ∧
    deserializeProperties Wire.sampleEnv true false ws = .ok (.dict
      [("keys", .dict [("4dabf18193072939515e22adb298388d", .str "1b47061264138c4ac30d75fd1eb44270"),
        ("value", .list [.str "k1", .str "k2"])]), ("later", .unknown),
       ("code", .assetArchive [("a", .asset .text "x")]), ("bucket", .str "id0")]) := by
  refine response_seen (env := Wire.sampleEnv) (kvs := sampleAnswer) (a := true) (r := true) (keep := true) false
    (rs := [(true, .list [.str "k1", .str "k2"]), (false, .none), (false, .list []), (false, .unknown),
      (false, .assetArchive [("a", .asset .text "x")]), (false, .str "id0")]) rfl (by decide) ?_
  intro q hq
  simp only [sampleAnswer, List.zip_cons_cons, List.zip_nil_right, List.mem_cons, List.not_mem_nil, or_false] at hq
  rcases hq with rfl | rfl | rfl | rfl | rfl | rfl
  · refine .array (rs := [(true, .str "k1"), (false, .str "k2")]) rfl ?_
    intro q hq
    simp only [List.zip_cons_cons, List.zip_nil_right, List.mem_cons, List.not_mem_nil, or_false] at hq
    rcases hq with rfl | rfl
    · exact .secret rfl (.str (by decide))
    · exact .str (by decide)
  · exact .null
  · exact .array (rs := []) rfl (by simp)
  · exact .computed
  · refine .blob (.assets (vs := [.asset .text "x"]) rfl (by decide) ?_)
    intro q hq
    simp only [List.zip_cons_cons, List.zip_nil_right, List.mem_cons, List.not_mem_nil, or_false] at hq
    subst hq
    exact .text (by decide)
  · exact .custom (fun _ => ⟨_, rfl, rfl⟩) (by decide) (by decide)

end Pulumi.Engine
