import Verif.Resolve.Translate
import Verif.Wire.Theorems
/-! # C23-C25, C47: resolution of a resource's outputs -/
namespace Pulumi.Resolve
open Pulumi.Wire

/-! ## Helper lemmas -/

theorem failed_owns {c : Ctx} (hn : c.props.Nodup) (e : Exc) {n : String} (h : Declared c n) :
    Owns (c.resolvers.flatMap (failedEntries c.res e)) (.prop n) (failedEntries c.res e n) :=
  Owns.flatMap (nm := id) (by simpa using resolvers_nodup hn) (fun _ _ => entries_target) ((resolvers_spec c n).2 h)

theorem failed_fresh {c : Ctx} {e : Exc} {t : Target} (ht : ∀ n, t ≠ .prop n) :
    Fresh (c.resolvers.flatMap (failedEntries c.res e)) t :=
  fresh_flatMap fun n _ x hx => by rw [entries_target x hx]; exact (ht n).symm

theorem failed_targets {c : Ctx} {e : Exc} : ∀ x ∈ c.resolvers.flatMap (failedEntries c.res e),
    ∃ n, Declared c n ∧ x.1.1 = .prop n := by
  intro x hx
  obtain ⟨n, hn, hx⟩ := List.mem_flatMap.1 hx
  exact ⟨n, (resolvers_spec c n).1 hn, entries_target x hx⟩

theorem prop_owns {c : Ctx} (hn : c.props.Nodup) {all : List (String × RV)} (ha : (all.map (·.1)).Nodup)
    (deps : List (String × List ResId)) {n : String} (h : Declared c n) :
    ∃ v k s, Owns (propEntries c.env.dryRun c.res c.resolvers all deps) (.prop n)
      (entries c.res n (deps.lookup n) v k s) := by
  have hm := (resolvers_spec c n).2 h
  cases hl : all.lookup n with
  | some w => exact ⟨_, _, _, owns_found ha hm hl⟩
  | none => exact ⟨_, _, _, owns_missing (resolvers_nodup hn) hm hl⟩

theorem prop_targets {c : Ctx} {all : List (String × RV)} {deps : List (String × List ResId)} :
    ∀ x ∈ propEntries c.env.dryRun c.res c.resolvers all deps, ∃ n, Declared c n ∧ x.1.1 = .prop n := by
  intro x hx
  rcases List.mem_append.1 hx with hx | hx
  · obtain ⟨kv, _, hx⟩ := List.mem_flatMap.1 hx
    simp only [foundEntries] at hx
    split at hx
    · rename_i hm; exact ⟨_, (resolvers_spec c _).1 hm, entries_target x hx⟩
    · cases hx
  · obtain ⟨n, hm, hx⟩ := List.mem_flatMap.1 hx
    simp only [missingEntries] at hx
    split at hx
    · cases hx
    · exact ⟨_, (resolvers_spec c _).1 hm, entries_target x hx⟩

theorem prop_fresh {c : Ctx} {all : List (String × RV)} {deps : List (String × List ResId)} {t : Target}
    (ht : ∀ n, t ≠ .prop n) : Fresh (propEntries c.env.dryRun c.res c.resolvers all deps) t := by
  intro x hx
  obtain ⟨n, _, h⟩ := prop_targets x hx
  rw [h]
  exact (ht n).symm

theorem head_urn (custom : Bool) (urn id : RV) (known : Bool) :
    Owns (headEntries custom urn id known) .urn (own .urn (.value urn) (.flag true) (.flag false)) := by
  refine (Owns.refl _ _).left ?_
  intro x hx
  cases custom
  · cases hx
  · rw [own_target x hx]; simp

theorem head_id (urn id : RV) (known : Bool) :
    Owns (headEntries true urn id known) .id (own .id (.value id) (.flag known) (.flag false)) := by
  refine (Owns.refl _ _).right ?_
  intro x hx
  rw [own_target x hx]; simp

theorem head_targets {custom : Bool} {urn id : RV} {known : Bool} : ∀ x ∈ headEntries custom urn id known,
    x.1.1 = .urn ∨ custom = true ∧ x.1.1 = .id := by
  intro x hx
  rcases List.mem_append.1 hx with hx | hx
  · exact .inl (own_target x hx)
  · cases custom
    · cases hx
    · exact .inr ⟨rfl, own_target x hx⟩

theorem allProperties_error {env : Env} {legacy : Bool} {c : ResClass} {inputs outputs : List (String × W)} {e : Exc}
    (h : allProperties env legacy c inputs outputs = .error e) : e ≠ .invalidState := by
  rw [allProperties] at h
  cases h1 : readItems env outputs with
  | error e1 =>
    rw [h1] at h
    cases h
    rintro rfl
    unfold readItems at h1
    split at h1
    · rename_i v _
      cases v <;> simp [items] at h1
    · cases h1
  | ok kvs =>
    rw [h1] at h
    simp only [bind, Except.bind] at h
    cases h2 : engineProps c [] kvs with
    | error e2 => rw [h2] at h; cases h; simp
    | ok fe =>
      rw [h2] at h
      simp only [Except.mapError] at h
      split at h
      · cases h3 : inputProps env c fe inputs with
        | error e3 => rw [h3] at h; cases h; simp
        | ok _ => rw [h3] at h; cases h
      · cases h

theorem inj_of_nodup_map {α β : Type} {f : α → β} {xs : List α} (h : (xs.map f).Nodup) {a b : α} (ha : a ∈ xs)
    (hb : b ∈ xs) (he : f a = f b) : a = b := by
  induction xs with
  | nil => cases ha
  | cons x xs ih =>
    simp only [List.map_cons, List.nodup_cons] at h
    rcases List.mem_cons.1 ha with h1 | h1 <;> rcases List.mem_cons.1 hb with h2 | h2
    · rw [h1, h2]
    · exact absurd (List.mem_map.2 ⟨b, h2, by rw [← he, h1]⟩) h.1
    · exact absurd (List.mem_map.2 ⟨a, h1, by rw [he, h2]⟩) h.1
    · exact ih h.2 h1 h2

/-! ## C23 -/

/-- The state in which everything that belongs to the resource, and nothing else, has been set exactly once. -/
structure OnceEach (c : Ctx) (s : Store) : Prop where
  property : ∀ n, Declared c n → ∀ f, timesSet s (.prop n) f = 1
  urn : ∀ f, f ≠ .deps → timesSet s .urn f = 1
  id : c.custom = true → ∀ f, f ≠ .deps → timesSet s .id f = 1
  only : ∀ x ∈ s, x.1.1 = .urn ∨ (c.custom = true ∧ x.1.1 = .id) ∨ ∃ n, Declared c n ∧ x.1.1 = .prop n

theorem failed_once {c : Ctx} (hn : c.props.Nodup) (e : Exc) : OnceEach c (c.resolvers.flatMap (failedEntries c.res e) ++
    own .urn (.failed e) (.failed e) (.failed e) ++
    if c.custom then own .id (.failed e) (.failed e) (.failed e) else []) := by
  have hid : ∀ t, t ≠ .id → Fresh (if c.custom then own .id (.failed e) (.failed e) (.failed e) else []) t := by
    intro t ht x hx
    split at hx
    · rw [own_target x hx]; exact ht.symm
    · cases hx
  have hurn : ∀ t, t ≠ .urn → Fresh (own .urn (.failed e) (.failed e) (.failed e)) t := by
    intro t ht x hx
    rw [own_target x hx]; exact ht.symm
  constructor
  · intro n h f
    rw [(((failed_owns hn e h).left (hurn _ (by simp))).left (hid _ (by simp))).2]
    exact entries_times ..
  · intro f hf
    rw [(((Owns.refl _ _).right (failed_fresh (by simp))).left (hid _ (by simp))).2, own_times, if_neg hf]
  · intro hc f hf
    rw [hc, if_pos rfl]
    rw [((Owns.refl (own .id (.failed e) (.failed e) (.failed e)) .id).right
      ((failed_fresh (by simp)).append (hurn _ (by simp)))).2, own_times, if_neg hf]
  · intro x hx
    rcases List.mem_append.1 hx with hx | hx
    · rcases List.mem_append.1 hx with hx | hx
      · exact .inr (.inr (failed_targets x hx))
      · exact .inl (own_target x hx)
    · split at hx
      · rename_i hc; exact .inr (.inl ⟨hc, own_target x hx⟩)
      · cases hx

theorem with_head_once {c : Ctx} {urn id : RV} {known : Bool} {rest : Store}
    (h1 : ∀ n, Declared c n → ∀ f, timesSet rest (.prop n) f = 1) (h2 : ∀ x ∈ rest, ∃ n, Declared c n ∧ x.1.1 = .prop n) :
    OnceEach c (headEntries c.custom urn id known ++ rest) := by
  have hfr : ∀ t, (∀ n, t ≠ .prop n) → Fresh rest t := by
    intro t ht x hx
    obtain ⟨n, _, h⟩ := h2 x hx
    rw [h]
    exact (ht n).symm
  constructor
  · intro n h f
    rw [timesSet_append, timesSet_fresh (headEntries_fresh _ _ _ _ _), h1 n h f]
  · intro f hf
    rw [((head_urn ..).left (hfr _ (by simp))).2, own_times, if_neg hf]
  · intro hc f hf
    rw [hc, ((head_id ..).left (hfr _ (by simp))).2, own_times, if_neg hf]
  · intro x hx
    rcases List.mem_append.1 hx with hx | hx
    · rcases head_targets x hx with h | h
      · exact .inl h
      · exact .inr (.inl h)
    · exact .inr (.inr (h2 x hx))

/-- **C23.** Whatever the outcome of preparing and sending the request, whatever the engine answers: when the coroutine
that registers a resource ends, its `urn`, its `id` if it is a custom resource, and every declared property other than
these have been set exactly once, all four futures of a property and the three futures of `urn` and `id` that are
pending; nothing else has been set. -/
theorem outputs_resolved_once {c : Ctx} (hn : c.props.Nodup) (prep : Except Exc (List (String × W)))
    (rpc : Except Exc (Option Response)) (hr : rpc ≠ .ok none) : OnceEach c (register c prep rpc []).2 := by
  rw [register_run hn]
  cases prep with
  | error e => exact failed_once hn e
  | ok inputs =>
    cases rpc with
    | error e => exact failed_once hn e
    | ok r =>
      cases r with
      | none => exact absurd rfl hr
      | some resp =>
        simp only
        cases h : allProperties c.env c.legacyApply c.cls inputs resp.object with
        | ok all =>
          refine with_head_once ?_ prop_targets
          intro n h' f
          obtain ⟨_, _, _, ho⟩ := prop_owns hn (allProperties_nodup h) (translateDeps c.cls (replyDeps resp)) h'
          rw [ho.2]
          exact entries_times ..
        | error e =>
          refine with_head_once ?_ failed_targets
          intro n h' f
          rw [(failed_owns hn e h').2]
          exact entries_times ..

/-- **C23.** No future is set twice: registering raises `InvalidStateError` only if that is what preparing or sending
the request raised. -/
theorem never_resolved_twice {c : Ctx} (hn : c.props.Nodup) (prep : Except Exc (List (String × W)))
    (rpc : Except Exc (Option Response)) (h : (register c prep rpc []).1 = .error .invalidState) :
    prep = .error .invalidState ∨ rpc = .error .invalidState := by
  rw [register_run hn] at h
  cases prep with
  | error e => cases h; exact .inl rfl
  | ok inputs =>
    cases rpc with
    | error e => cases h; exact .inr rfl
    | ok r =>
      cases r with
      | none => cases h
      | some resp =>
        simp only at h
        cases ha : allProperties c.env c.legacyApply c.cls inputs resp.object with
        | ok all => rw [ha] at h; cases h
        | error e => rw [ha] at h; cases h; exact absurd rfl (allProperties_error ha)

/-- The code relies on `RegisterResource` not giving `None`: then it returns and nothing is ever resolved. The real
monitor raises instead. -/
theorem no_reply_leaves_pending (c : Ctx) (inputs : List (String × W)) :
    register c (.ok inputs) (.ok none) [] = (.ok (), []) := rfl

/-- A resource class with one renamed property and a typed list, used in the examples. -/
def sampleClass : ResClass :=
  { classes := { output := fun _ => ⟨[⟨"first_name", "firstName", .int, true⟩, ⟨"tag", "tag", .any, true⟩], none⟩, enum := fun _ => [.num 1] }
    types := fun k => if k = "people" then .list (.output "Person") else .any
    metaNames := some fun k => if k = "bucketName" then "bucket_name" else k
    translateOutput := id }

def sampleCtx : Ctx :=
  { env := sampleEnv, legacyApply := false, cls := sampleClass, res := .decl 0
    props := ["bucket_name", "people", "size", "id"], custom := true }

def sampleResponse : Response :=
  { urn := "urn:pulumi:s::p::t:m:T::a", id := "i-1"
    object := [("bucketName", .struct [(sigKey, .str secretSig), ("value", .str "b")]),
      ("people", .list [.struct [("firstName", .num 3)]]), ("extra", .bool true)]
    deps := [("bucketName", ["urn:pulumi:s::p::t:m:T::z"])] }

theorem sample_nodup : sampleCtx.props.Nodup := by decide

/-- The response has a secret, a value of an output type and a property that the program does not declare; the size is
missing. -/
example : OnceEach sampleCtx (register sampleCtx (.ok [("size", .num 4)]) (.ok (some sampleResponse)) []).2 ∧
    Declared sampleCtx "bucket_name" ∧ ∃ s, register sampleCtx (.ok [("size", .num 4)]) (.ok (some sampleResponse)) [] = (.ok (), s) :=
  ⟨outputs_resolved_once sample_nodup _ _ (by simp), by simp [Declared, sampleCtx], _, rfl⟩

/-! ## C24 -/

theorem collect_sublist {env : Env} {keep ki : Bool} {kvs : List (String × W)} {es : List (String × PV)}
    (h : collect ki (desKvs env keep kvs) = .ok es) : (es.map (·.1)).Sublist (kvs.map (·.1)) := by
  induction kvs generalizing es with
  | nil => simp [desKvs, collect] at h; subst h; simp
  | cons p kvs ih =>
    obtain ⟨k0, w0⟩ := p
    obtain ⟨es', he, hc⟩ := collect_cons h
    rcases hc with ⟨hs, rfl⟩ | ⟨hs, hd, rfl⟩ | ⟨hs, v0, hd, hn, rfl⟩
    · exact (ih he).cons _
    · exact (ih he).cons _
    · exact (ih he).cons_cons _

/-- The engine's property `k` has the value `v`, which is not null. -/
def EngineHas (c : Ctx) (resp : Response) (k : String) (v : PV) : Prop :=
  Visible k ∧ v ≠ .none ∧ ∃ w, (k, w) ∈ resp.object ∧ des c.env false w = .ok v

/-- The response is an ordinary object, without the key that marks special objects, and no two of its properties, and no
two inputs, and no two entries of its property dependencies, are given the same Python name. -/
structure Ordinary (c : Ctx) (inputs : List (String × W)) (resp : Response) : Prop where
  unmarked : resp.object.lookup sigKey = none
  names : (resp.object.map fun kv => c.cls.translate kv.1).Nodup
  inputNames : (inputs.map fun kv => c.cls.translate kv.1).Nodup
  depNames : (resp.deps.map fun kv => c.cls.translate kv.1).Nodup

/-- What a successful registration ends with. -/
theorem success_run {c : Ctx} (hn : c.props.Nodup) {inputs : List (String × W)} {resp : Response} {s : Store}
    (h : register c (.ok inputs) (.ok (some resp)) [] = (.ok (), s)) :
    ∃ all, allProperties c.env c.legacyApply c.cls inputs resp.object = .ok all ∧
      s = headEntries c.custom (.leaf (.str resp.urn)) (.leaf (.str resp.id)) (resp.id != "") ++
        propEntries c.env.dryRun c.res c.resolvers all (translateDeps c.cls (replyDeps resp)) := by
  rw [register_run hn] at h
  simp only at h
  cases ha : allProperties c.env c.legacyApply c.cls inputs resp.object with
  | ok all => rw [ha] at h; cases h; exact ⟨all, rfl, rfl⟩
  | error e => rw [ha] at h; cases h

theorem ordinary_collect {env : Env} {object : List (String × W)} {kvs : List (String × PV)}
    (hs : object.lookup sigKey = none) (h : deserializeProperties env false false object = .ok (.dict kvs)) :
    collect false (desKvs env false object) = .ok kvs := by
  cases structCase h with
  | ordinary _ hc hv => cases hv; exact hc
  | asset h => rw [hs] at h; cases h
  | archive h => rw [hs] at h; cases h
  | secret h => rw [hs] at h; cases h
  | reference h => rw [hs] at h; cases h
  | output h => rw [hs] at h; cases h

/-- Value and flags of a property for which `all_properties` has an entry. -/
theorem found_resolved {c : Ctx} {urn id : RV} {known : Bool} {all : List (String × RV)}
    {deps : List (String × List ResId)} (ha : (all.map (·.1)).Nodup) {n : String} (hd : Declared c n) {w : RV}
    (hw : all.lookup n = some w) :
    Resolved (headEntries c.custom urn id known ++ propEntries c.env.dryRun c.res c.resolvers all deps) (.prop n)
      w.unwrap (if c.env.dryRun then !w.unwrap.isNone else true) w.isSecret :=
  ((owns_found ha ((resolvers_spec c n).2 hd) hw).right (headEntries_fresh _ _ _ _ _)).holds.2

/-- **C24.** In a successful registration, an output property that the engine's response has (with a value other than
null) is resolved with the engine's value, without its secret marker and translated to the declared type; it is secret
iff the engine marked it; it is known in an update, and in a preview if the value is not `None`. -/
theorem engine_value {c : Ctx} (hn : c.props.Nodup) (ht : NameSafe c.cls.pass) {inputs : List (String × W)}
    {resp : Response} (ho : Ordinary c inputs resp) {s : Store}
    (h : register c (.ok inputs) (.ok (some resp)) [] = (.ok (), s)) {k : String} {v : PV}
    (he : EngineHas c resp k v) (hd : Declared c (c.cls.translate k)) :
    ∃ x secret y, Marking v x secret ∧ c.cls.trans k x = .ok y ∧
      Resolved s (.prop (c.cls.translate k)) y (!c.env.dryRun || !y.isNone) secret := by
  obtain ⟨all, ha, rfl⟩ := success_run hn h
  obtain ⟨kvs, fe, h1, h2, h3⟩ := allProperties_ok ha
  have hc := ordinary_collect ho.unmarked h1
  obtain ⟨hvis, hnn, w0, hw0, hdes⟩ := he
  have hm : (k, v) ∈ kvs := (collect_mem hc k v).2 ⟨.inr hvis, hnn, w0, hw0, hdes⟩
  have hnd : (kvs.map fun kv => c.cls.translate kv.1).Nodup := by
    have hsub := (collect_sublist hc).map c.cls.translate
    rw [List.map_map, List.map_map] at hsub
    exact hsub.nodup ho.names
  obtain ⟨w, hw, hl⟩ := engineProps_lookup h2 hnd hm
  have hall : all.lookup (c.cls.translate k) = some w := by
    rcases h3 with ⟨_, h3⟩ | ⟨_, rfl⟩
    · rw [inputProps_untouched h3 (.inl (List.mem_map.2 ⟨_, lookup_mem hl, rfl⟩)), hl]
    · exact hl
  obtain ⟨x, b, hx, hy, hb⟩ := trans_marking ht (des_bubbled _ _ _ _ hdes) hw
  refine ⟨x, b, w.unwrap, hx, hy, ?_⟩
  have hr := found_resolved (urn := .leaf (.str resp.urn)) (id := .leaf (.str resp.id)) (known := resp.id != "")
    (deps := translateDeps c.cls (replyDeps resp)) (allProperties_nodup ha) hd hall
  rw [hb] at hr
  cases hdry : c.env.dryRun <;> simpa [hdry] using hr

theorem engine_lacks {c : Ctx} {resp : Response} {kvs : List (String × PV)} {fe : List (String × RV)}
    (hc : collect false (desKvs c.env false resp.object) = .ok kvs) (h2 : engineProps c.cls [] kvs = .ok fe) {n : String}
    (he : ∀ k v, EngineHas c resp k v → c.cls.translate k ≠ n) : fe.lookup n = none := by
  rw [engineProps_untouched h2 (n := n)]
  · rfl
  · intro kv hkv
    obtain ⟨hv, hnn, w, hw, hd⟩ := (collect_mem hc kv.1 kv.2).1 hkv
    exact he kv.1 kv.2 ⟨hv.resolve_left (by simp), hnn, w, hw, hd⟩

/-- **C24.** An output property that the response does not have, and that is an input, is resolved with the input, in
an update or if the engine runs a preview with legacy apply. -/
theorem input_value {c : Ctx} (hn : c.props.Nodup) (ht : NameSafe c.cls.pass) {inputs : List (String × W)}
    {resp : Response} (ho : Ordinary c inputs resp) {s : Store}
    (h : register c (.ok inputs) (.ok (some resp)) [] = (.ok (), s)) (hu : c.env.dryRun = false ∨ c.legacyApply = true)
    {k : String} {w : W} (hi : (k, w) ∈ inputs)
    (he : ∀ k' v, EngineHas c resp k' v → c.cls.translate k' ≠ c.cls.translate k) (hd : Declared c (c.cls.translate k)) :
    ∃ v x secret y, des c.env false w = .ok v ∧ Marking v x secret ∧ c.cls.trans k x = .ok y ∧
      Resolved s (.prop (c.cls.translate k)) y (!c.env.dryRun || !y.isNone) secret := by
  obtain ⟨all, ha, rfl⟩ := success_run hn h
  obtain ⟨kvs, fe, h1, h2, h3⟩ := allProperties_ok ha
  have hc := ordinary_collect ho.unmarked h1
  have hfe := engine_lacks hc h2 he
  have hin : inputProps c.env c.cls fe inputs = .ok all := by
    rcases h3 with ⟨_, h3⟩ | ⟨⟨h4, h5⟩, _⟩
    · exact h3
    · rcases hu with hu | hu
      · rw [hu] at h4; cases h4
      · rw [hu] at h5; cases h5
  obtain ⟨v, z, hv, hz, hl⟩ := inputProps_lookup hin hi ho.inputNames (fun hm => by
    obtain ⟨p, hp, hpe⟩ := List.mem_map.1 hm
    exact lookup_eq_none hfe p hp hpe)
  obtain ⟨x, b, hx, hy, hb⟩ := trans_marking ht (des_bubbled _ _ _ _ hv) hz
  refine ⟨v, x, b, z.unwrap, hv, hx, hy, ?_⟩
  have hr := found_resolved (urn := .leaf (.str resp.urn)) (id := .leaf (.str resp.id)) (known := resp.id != "")
    (deps := translateDeps c.cls (replyDeps resp)) (allProperties_nodup ha) hd hl
  rw [hb] at hr
  cases hdry : c.env.dryRun <;> simpa [hdry] using hr

/-- **C24.** Any other output property is resolved with `None`, not secret: in an update it is known, in a preview it is
unknown. In a preview without legacy apply that includes the inputs that the response does not have. -/
theorem missing_value {c : Ctx} (hn : c.props.Nodup) {inputs : List (String × W)} {resp : Response}
    (ho : Ordinary c inputs resp) {s : Store} (h : register c (.ok inputs) (.ok (some resp)) [] = (.ok (), s))
    {n : String} (hd : Declared c n) (he : ∀ k v, EngineHas c resp k v → c.cls.translate k ≠ n)
    (hi : (c.env.dryRun = true ∧ c.legacyApply = false) ∨ ∀ k w, (k, w) ∈ inputs → c.cls.translate k ≠ n) :
    Resolved s (.prop n) (.leaf .none) (!c.env.dryRun) false := by
  obtain ⟨all, ha, rfl⟩ := success_run hn h
  obtain ⟨kvs, fe, h1, h2, h3⟩ := allProperties_ok ha
  have hc := ordinary_collect ho.unmarked h1
  have hfe := engine_lacks hc h2 he
  have hall : all.lookup n = none := by
    rcases h3 with ⟨hu, h3⟩ | ⟨_, rfl⟩
    · rw [inputProps_untouched h3 (.inr ?_), hfe]
      rcases hi with ⟨h4, h5⟩ | hi
      · rcases hu with hu | hu
        · rw [hu] at h4; cases h4
        · rw [hu] at h5; cases h5
      · exact fun kv hkv => hi kv.1 kv.2 hkv
    · exact hfe
  exact ((owns_missing (resolvers_nodup hn) ((resolvers_spec c n).2 hd) hall).right (headEntries_fresh _ _ _ _ _)).holds.2

/-- **C24.** The `urn` is the engine's and known; the `id` is the engine's and known iff it is not empty. -/
theorem own_values {c : Ctx} (hn : c.props.Nodup) {inputs : List (String × W)} {resp : Response} {s : Store}
    (h : register c (.ok inputs) (.ok (some resp)) [] = (.ok (), s)) :
    Resolved s .urn (.leaf (.str resp.urn)) true false ∧
    (c.custom = true → Resolved s .id (.leaf (.str resp.id)) (resp.id != "") false) := by
  obtain ⟨all, ha, rfl⟩ := success_run hn h
  refine ⟨((head_urn ..).left (prop_fresh (by simp))).holds_own, ?_⟩
  intro hc
  rw [hc]
  exact ((head_id ..).left (prop_fresh (by simp))).holds_own

theorem sample_ordinary : Ordinary sampleCtx [("size", .num 4)] sampleResponse :=
  ⟨by decide, by decide, by decide, by decide⟩

/-- The hypotheses hold in the example: the secret name comes from the engine, the size from the inputs. -/
example : ∃ s, register sampleCtx (.ok [("size", .num 4)]) (.ok (some sampleResponse)) [] = (.ok (), s) ∧
    EngineHas sampleCtx sampleResponse "bucketName" (.dict [(sigKey, .str secretSig), ("value", .str "b")]) ∧
    Resolved s (.prop "bucket_name") (.leaf (.str "b")) true true ∧
    Resolved s (.prop "size") (.leaf (.num 4)) true false ∧
    Resolved s (.prop "people") (.list [.obj "Person" [("first_name", .int 3)]]) true false := by
  refine ⟨_, rfl, ⟨?_, by simp, _, List.mem_cons_self .., rfl⟩, ?_, ?_, ?_⟩
  · intro h
    revert h
    decide
  all_goals
    refine ⟨⟨?_, rfl⟩, ⟨?_, rfl⟩, ⟨?_, rfl⟩⟩
  · exact List.mem_of_getElem? (i := 7) rfl
  · exact List.mem_of_getElem? (i := 8) rfl
  · exact List.mem_of_getElem? (i := 9) rfl
  · exact List.mem_of_getElem? (i := 15) rfl
  · exact List.mem_of_getElem? (i := 16) rfl
  · exact List.mem_of_getElem? (i := 17) rfl
  · exact List.mem_of_getElem? (i := 11) rfl
  · exact List.mem_of_getElem? (i := 12) rfl
  · exact List.mem_of_getElem? (i := 13) rfl

/-- A property that the engine reports as null is treated as absent: in an update the program sees its own input. -/
theorem null_output_shows_input : ∃ s,
    register sampleCtx (.ok [("size", .num 4)]) (.ok (some { sampleResponse with object := [("size", .null)] })) [] =
      (.ok (), s) ∧ Resolved s (.prop "size") (.leaf (.num 4)) true false :=
  ⟨_, rfl, ⟨List.mem_of_getElem? (i := 7) rfl, rfl⟩, ⟨List.mem_of_getElem? (i := 8) rfl, rfl⟩,
    ⟨List.mem_of_getElem? (i := 9) rfl, rfl⟩⟩

/-! ## C47 -/

theorem translateDeps_lookup {c : ResClass} {deps : List (String × List ResId)}
    (hn : (deps.map fun kv => c.translate kv.1).Nodup) {k : String} {ds : List ResId} (hm : (k, ds) ∈ deps) :
    (translateDeps c deps).lookup (c.translate k) = some ds := by
  suffices ∀ acc, (deps.foldl (fun acc kv => setKey acc (c.translate kv.1) kv.2) acc).lookup (c.translate k) = some ds from
    this []
  induction deps with
  | nil => cases hm
  | cons p deps ih =>
    intro acc
    simp only [List.map_cons, List.nodup_cons] at hn
    rw [List.foldl_cons]
    rcases List.mem_cons.1 hm with hh | hh
    · subst hh
      have : ∀ acc : List (String × List ResId), (deps.foldl (fun acc kv => setKey acc (c.translate kv.1) kv.2) acc).lookup
          (c.translate k) = acc.lookup (c.translate k) := by
        have hno : ∀ kv ∈ deps, c.translate kv.1 ≠ c.translate k := fun kv hkv he => hn.1 (List.mem_map.2 ⟨kv, hkv, he⟩)
        clear ih hm hn
        induction deps with
        | nil => intro; rfl
        | cons q deps ih2 =>
          intro acc
          rw [List.foldl_cons, ih2 (fun kv hkv => hno kv (List.mem_cons_of_mem _ hkv)),
            setKey_lookup_ne _ _ (Ne.symm (hno q (List.mem_cons_self ..)))]
      rw [this, setKey_lookup_self]
    · exact ih hn.2 hh _

theorem translateDeps_none {c : ResClass} {deps : List (String × List ResId)} {n : String}
    (hno : ∀ kv ∈ deps, c.translate kv.1 ≠ n) : (translateDeps c deps).lookup n = none := by
  suffices ∀ acc : List (String × List ResId), (deps.foldl (fun acc kv => setKey acc (c.translate kv.1) kv.2) acc).lookup n =
      acc.lookup n from this []
  induction deps with
  | nil => intro; rfl
  | cons q deps ih2 =>
    intro acc
    rw [List.foldl_cons, ih2 (fun kv hkv => hno kv (List.mem_cons_of_mem _ hkv)),
      setKey_lookup_ne _ _ (Ne.symm (hno q (List.mem_cons_self ..)))]

/-- **C47.** The resources an output property depends on are the resource itself and, as placeholders, those that the
engine reports for the property: whether or not the response has a value for it. -/
theorem output_dependencies {c : Ctx} (hn : c.props.Nodup) {inputs : List (String × W)} {resp : Response}
    (ho : Ordinary c inputs resp) {s : Store} (h : register c (.ok inputs) (.ok (some resp)) [] = (.ok (), s))
    {n : String} (hd : Declared c n) :
    ∃ ds, Holds s (.prop n) .deps (.deps ds) ∧
      ∀ r, r ∈ ds ↔ r = c.res ∨ ∃ k urns u, (k, urns) ∈ resp.deps ∧ c.cls.translate k = n ∧ u ∈ urns ∧ r = .dep u := by
  obtain ⟨all, ha, rfl⟩ := success_run hn h
  obtain ⟨_, _, _, hown⟩ := prop_owns hn (allProperties_nodup ha) (translateDeps c.cls (replyDeps resp)) hd
  refine ⟨_, (hown.right (headEntries_fresh _ _ _ _ _)).holds.1, ?_⟩
  intro r
  rw [mem_resAdd, or_comm]
  apply or_congr Iff.rfl
  by_cases hk : ∃ kv ∈ resp.deps, c.cls.translate kv.1 = n
  · obtain ⟨⟨k, urns⟩, hm, rfl⟩ := hk
    have hm' : (k, (urns.map ResId.dep).foldl resAdd []) ∈ replyDeps resp := List.mem_map.2 ⟨_, hm, rfl⟩
    have hnd : ((replyDeps resp).map fun kv => c.cls.translate kv.1).Nodup := by
      simp only [replyDeps, List.map_map]
      exact ho.depNames
    rw [translateDeps_lookup hnd hm', Option.getD_some, mem_foldl_resAdd]
    constructor
    · rintro (h | h)
      · cases h
      · obtain ⟨u, hu, rfl⟩ := List.mem_map.1 h
        exact ⟨k, urns, u, hm, rfl, hu, rfl⟩
    · rintro ⟨k', urns', u, hm2, he, hu, rfl⟩
      right
      have : (k', urns') = (k, urns) := inj_of_nodup_map ho.depNames hm2 hm he
      cases this
      exact List.mem_map.2 ⟨u, hu, rfl⟩
  · rw [translateDeps_none (n := n)]
    · constructor
      · intro h; cases h
      · rintro ⟨k', urns', u, hm2, he, _⟩
        exact absurd ⟨_, hm2, he⟩ hk
    · intro kv hkv he
      obtain ⟨q, hq, rfl⟩ := List.mem_map.1 hkv
      exact hk ⟨q, hq, he⟩

/-! ## C25 -/

/-- **C25.** If preparing the request or the call itself raises `e`, then awaiting the `urn`, the `id`, or any output
property raises `e`, and so does the coroutine. -/
theorem failure_reaches_outputs {c : Ctx} (hn : c.props.Nodup) {prep : Except Exc (List (String × W))}
    {rpc : Except Exc (Option Response)} {e : Exc} (hf : prep = .error e ∨ (∃ i, prep = .ok i) ∧ rpc = .error e) :
    (register c prep rpc []).1 = .error e ∧ Raises (register c prep rpc []).2 .urn e ∧
      (c.custom = true → Raises (register c prep rpc []).2 .id e) ∧
      ∀ n, Declared c n → Raises (register c prep rpc []).2 (.prop n) e := by
  have key : ∀ r, r = ((.error e : Except Exc Unit), c.resolvers.flatMap (failedEntries c.res e) ++
          own .urn (.failed e) (.failed e) (.failed e) ++
          if c.custom then own .id (.failed e) (.failed e) (.failed e) else []) →
      r.1 = .error e ∧ Raises r.2 .urn e ∧ (c.custom = true → Raises r.2 .id e) ∧
        ∀ n, Declared c n → Raises r.2 (.prop n) e := by
    rintro _ rfl
    have hid : ∀ t, t ≠ .id → Fresh (if c.custom then own .id (.failed e) (.failed e) (.failed e) else []) t := by
      intro t ht x hx
      split at hx
      · rw [own_target x hx]; exact ht.symm
      · cases hx
    have hurn : ∀ t, t ≠ .urn → Fresh (own .urn (.failed e) (.failed e) (.failed e)) t := by
      intro t ht x hx
      rw [own_target x hx]; exact ht.symm
    refine ⟨rfl, (((Owns.refl _ _).right (failed_fresh (by simp))).left (hid _ (by simp))).holds_own, ?_, ?_⟩
    · intro hc
      simp only [hc, if_true]
      exact ((Owns.refl (own .id (.failed e) (.failed e) (.failed e)) .id).right
        ((failed_fresh (by simp)).append (hurn _ (by simp)))).holds_own
    · intro n hd
      exact (((failed_owns hn e hd).left (hurn _ (by simp))).left (hid _ (by simp))).holds.2
  rcases hf with rfl | ⟨⟨i, rfl⟩, rfl⟩
  · exact key _ (register_run hn ..)
  · exact key _ (register_run hn ..)

/-- **C25.** If the response cannot be read or does not have the declared types, registering raises some `e`, awaiting
any output property raises `e`, and `urn` and `id` are those of the response. -/
theorem late_failure_reaches_outputs {c : Ctx} (hn : c.props.Nodup) {inputs : List (String × W)} {resp : Response}
    {s : Store} {e : Exc} (h : register c (.ok inputs) (.ok (some resp)) [] = (.error e, s)) :
    Resolved s .urn (.leaf (.str resp.urn)) true false ∧
    (c.custom = true → Resolved s .id (.leaf (.str resp.id)) (resp.id != "") false) ∧
    ∀ n, Declared c n → Raises s (.prop n) e := by
  rw [register_run hn] at h
  simp only at h
  cases ha : allProperties c.env c.legacyApply c.cls inputs resp.object with
  | ok all => rw [ha] at h; cases h
  | error e =>
    rw [ha] at h
    cases h
    refine ⟨((head_urn ..).left (failed_fresh (by simp))).holds_own, ?_, ?_⟩
    · intro hc
      rw [hc]
      exact ((head_id ..).left (failed_fresh (by simp))).holds_own
    · intro n hd
      exact ((failed_owns hn e hd).right (headEntries_fresh _ _ _ _ _)).holds.2

/-- **C25.** The same for `read_resource` and for the lookup by URN, up to the reply. -/
theorem read_failure_reaches_outputs {c : Ctx} (hn : c.props.Nodup) {id : RV} {prep : Except Exc (List (String × W))}
    {rpc : Except Exc (Option Response)} {rpc' : Except Exc Response} {e : Exc} :
    (prep = .error e ∨ (∃ i, prep = .ok i) ∧ rpc = .error e →
      (read c id prep rpc []).1 = .error e ∧ Raises (read c id prep rpc []).2 .urn e ∧
      Raises (read c id prep rpc []).2 .id e ∧ ∀ n, Declared c n → Raises (read c id prep rpc []).2 (.prop n) e) ∧
    (prep = .error e ∨ (∃ i, prep = .ok i) ∧ rpc' = .error e →
      (getResource c prep rpc' []).1 = .error e ∧ Raises (getResource c prep rpc' []).2 .urn e ∧
      (c.custom = true → Raises (getResource c prep rpc' []).2 .id e) ∧
      ∀ n, Declared c n → Raises (getResource c prep rpc' []).2 (.prop n) e) := by
  have key : ∀ (custom : Bool) (s : Store), s = c.resolvers.flatMap (failedEntries c.res e) ++
          own .urn (.failed e) (.failed e) (.failed e) ++
          (if custom then own .id (.failed e) (.failed e) (.failed e) else []) →
      Raises s .urn e ∧ (custom = true → Raises s .id e) ∧ ∀ n, Declared c n → Raises s (.prop n) e := by
    rintro custom _ rfl
    have hid : ∀ t, t ≠ .id → Fresh (if custom then own .id (.failed e) (.failed e) (.failed e) else []) t := by
      intro t ht x hx
      split at hx
      · rw [own_target x hx]; exact ht.symm
      · cases hx
    have hurn : ∀ t, t ≠ .urn → Fresh (own .urn (.failed e) (.failed e) (.failed e)) t := by
      intro t ht x hx
      rw [own_target x hx]; exact ht.symm
    refine ⟨(((Owns.refl _ _).right (failed_fresh (by simp))).left (hid _ (by simp))).holds_own, ?_, ?_⟩
    · intro hc
      simp only [hc, if_true]
      exact ((Owns.refl (own .id (.failed e) (.failed e) (.failed e)) .id).right
        ((failed_fresh (by simp)).append (hurn _ (by simp)))).holds_own
    · intro n hd
      exact (((failed_owns hn e hd).left (hurn _ (by simp))).left (hid _ (by simp))).holds.2
  constructor
  · intro hf
    have hr : read c id prep rpc [] = (.error e, c.resolvers.flatMap (failedEntries c.res e) ++
          own .urn (.failed e) (.failed e) (.failed e) ++ own .id (.failed e) (.failed e) (.failed e)) := by
      rw [read, bindM, request_run hn]
      rcases hf with rfl | ⟨⟨i, rfl⟩, rfl⟩ <;> rfl
    obtain ⟨h1, h2, h3⟩ := key true _ (by rw [if_pos rfl])
    rw [hr]
    exact ⟨rfl, h1, h2 rfl, h3⟩
  · intro hf
    have hr : getResource c prep rpc' [] = (.error e, c.resolvers.flatMap (failedEntries c.res e) ++
          own .urn (.failed e) (.failed e) (.failed e) ++
          (if c.custom then own .id (.failed e) (.failed e) (.failed e) else [])) := by
      rw [getResource, bindM, request_run hn]
      rcases hf with rfl | ⟨⟨i, rfl⟩, rfl⟩ <;> rfl
    obtain ⟨h1, h2, h3⟩ := key c.custom _ rfl
    rw [hr]
    exact ⟨rfl, h1, h2, h3⟩

/-- The hypotheses hold in the example; the first failure is a failed call, the second a response whose `people` is not a
list. -/
example : let e := Exc.raised "rpc"
    (register sampleCtx (.ok []) (.error e) []).1 = .error e ∧
    Raises (register sampleCtx (.ok []) (.error e) []).2 (.prop "people") e ∧
    ∃ s, register sampleCtx (.ok []) (.ok (some { sampleResponse with object := [("people", .struct [("a", .num 1)])] })) [] =
      (.error (.err .assertion), s) ∧ Raises s (.prop "size") (.err .assertion) := by
  intro e
  have h := failure_reaches_outputs (c := sampleCtx) sample_nodup (prep := .ok []) (rpc := .error e)
    (.inr ⟨⟨_, rfl⟩, rfl⟩)
  have h2 : register sampleCtx (.ok [])
      (.ok (some { sampleResponse with object := [("people", .struct [("a", .num 1)])] })) [] =
      (.error (.err .assertion), _) := rfl
  exact ⟨h.1, h.2.2.2 _ (by simp [Declared, sampleCtx]), _, h2,
    (late_failure_reaches_outputs (c := sampleCtx) sample_nodup h2).2.2 _ (by simp [Declared, sampleCtx])⟩

/-- `read_resource` and the lookup by URN have no handler for a response that does not have the declared types: they
raise, and the properties of the resource stay pending for ever. -/
theorem read_bad_response_hangs :
    let bad := { sampleResponse with object := [("people", .struct [("a", .num 1)])] }
    (∃ s, read sampleCtx (.leaf (.str "i-1")) (.ok []) (.ok (some bad)) [] = (.error (.err .assertion), s) ∧
      Declared sampleCtx "size" ∧ timesSet s (.prop "size") .value = 0) ∧
    ∃ s, getResource sampleCtx (.ok []) (.ok bad) [] = (.error (.err .assertion), s) ∧
      Declared sampleCtx "size" ∧ timesSet s (.prop "size") .value = 0 :=
  ⟨⟨_, rfl, by simp [Declared, sampleCtx], rfl⟩, ⟨_, rfl, by simp [Declared, sampleCtx], rfl⟩⟩

end Pulumi.Resolve
