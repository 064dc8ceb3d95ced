import Verif.Mocks.Lemmas
/-! # Lemmas for C75: without output values on the wire, no Output is read -/
namespace Pulumi.Mocks
open Pulumi.Wire

/-- No struct on the wire is an output value. -/
inductive CleanW : W → Prop
  | null : CleanW .null
  | bool (b) : CleanW (.bool b)
  | num (n) : CleanW (.num n)
  | str (s) : CleanW (.str s)
  | list {xs} : (∀ x ∈ xs, CleanW x) → CleanW (.list xs)
  | struct {kvs : List (String × W)} : kvs.lookup sigKey ≠ some (.str outputSig) → (∀ kv ∈ kvs, CleanW kv.2) →
      CleanW (.struct kvs)

/-- The same for serialised values. -/
inductive CleanS : PV → Prop
  | none : CleanS .none
  | bool (b) : CleanS (.bool b)
  | num (n) : CleanS (.num n)
  | str (s) : CleanS (.str s)
  | list {xs} : (∀ x ∈ xs, CleanS x) → CleanS (.list xs)
  | dict {kvs : List (String × PV)} : (∀ kv ∈ kvs, kv.1 = sigKey → kv.2 ≠ .str outputSig) →
      (∀ kv ∈ kvs, CleanS kv.2) → CleanS (.dict kvs)

theorem clean_toWireList {xs : List PV} (ih : ∀ x ∈ xs, CleanS x → ∀ w, toWire x = some w → CleanW w)
    (hc : ∀ x ∈ xs, CleanS x) : ∀ ws, toWireList xs = some ws → ∀ w ∈ ws, CleanW w := by
  induction xs with
  | nil => intro ws h; simp [toWireList] at h; subst h; simp
  | cons x xs ihx =>
    intro ws h
    simp only [toWireList] at h
    split at h
    · rename_i w ws' h1 h2
      cases h
      intro y hy
      rcases List.mem_cons.1 hy with rfl | hy
      · exact ih x (List.mem_cons_self ..) (hc x (List.mem_cons_self ..)) _ h1
      · exact ihx (fun z hz => ih z (List.mem_cons_of_mem _ hz)) (fun z hz => hc z (List.mem_cons_of_mem _ hz)) _ h2
          y hy
    · cases h

theorem clean_toWireKvs {xs : List (String × PV)} (ih : ∀ x ∈ xs, CleanS x.2 → ∀ w, toWire x.2 = some w → CleanW w)
    (hc : ∀ x ∈ xs, CleanS x.2) : ∀ ws, toWireKvs xs = some ws →
      (∀ w ∈ ws, CleanW w.2) ∧ ∀ w ∈ ws, ∃ x ∈ xs, x.1 = w.1 ∧ toWire x.2 = some w.2 := by
  induction xs with
  | nil => intro ws h; simp [toWireKvs] at h; subst h; simp
  | cons x xs ihx =>
    intro ws h
    obtain ⟨k, x⟩ := x
    simp only [toWireKvs] at h
    split at h
    · rename_i w ws' h1 h2
      cases h
      obtain ⟨i1, i2⟩ := ihx (fun z hz => ih z (List.mem_cons_of_mem _ hz))
        (fun z hz => hc z (List.mem_cons_of_mem _ hz)) _ h2
      constructor
      · intro y hy
        rcases List.mem_cons.1 hy with rfl | hy
        · exact ih (k, x) (List.mem_cons_self ..) (hc (k, x) (List.mem_cons_self ..)) _ h1
        · exact i1 y hy
      · intro y hy
        rcases List.mem_cons.1 hy with rfl | hy
        · exact ⟨(k, x), List.mem_cons_self .., rfl, h1⟩
        · obtain ⟨z, hz, he⟩ := i2 y hy
          exact ⟨z, List.mem_cons_of_mem _ hz, he⟩
    · cases h

theorem toWire_str {v : PV} {s : String} (h : toWire v = some (.str s)) : v = .str s := by
  cases v <;> simp [toWire] at h
  rw [h]

theorem clean_toWire (v : PV) : CleanS v → ∀ w, toWire v = some w → CleanW w := by
  induction v using PV.ind with
  | none => intro _ w h; simp [toWire] at h; subst h; exact .null
  | bool b => intro _ w h; simp [toWire] at h; subst h; exact .bool b
  | num b => intro _ w h; simp [toWire] at h; subst h; exact .num b
  | str b => intro _ w h; simp [toWire] at h; subst h; exact .str b
  | list xs ih =>
    intro hc w h
    simp only [toWire, Option.map_eq_some_iff] at h
    obtain ⟨ws, h1, rfl⟩ := h
    cases hc with
    | list hc => exact .list (clean_toWireList ih hc ws h1)
  | dict kvs ih =>
    intro hc w h
    simp only [toWire, Option.map_eq_some_iff] at h
    obtain ⟨ws, h1, rfl⟩ := h
    cases hc with
    | dict hk hc =>
      obtain ⟨i1, i2⟩ := clean_toWireKvs ih hc ws h1
      refine .struct ?_ i1
      intro hl
      obtain ⟨x, hx, he, ht⟩ := i2 _ (Wire.lookup_mem hl)
      exact hk x hx he (toWire_str ht)
  | _ => intros; simp_all [toWire]

/-! ## Serialisation -/

theorem clean_finish {env : Env} {k s : Bool} {v : PV} (h : CleanS v) : CleanS (finishOutput env k s v) := by
  simp only [finishOutput]
  split
  · exact .str _
  · split
    · refine .dict ?_ ?_
      · intro kv hkv
        simp at hkv
        rcases hkv with rfl | rfl
        · intro _; simp [secretSig, outputSig]
        · intro h; simp [sigKey] at h
      · intro kv hkv
        simp at hkv
        rcases hkv with rfl | rfl
        · exact .str _
        · exact h
    · exact h

theorem clean_strOut (env : Env) (o : StrOut) : CleanS (serStrOut env o).1 := by
  simp only [serStrOut]
  apply clean_finish
  split
  · exact .str _
  · exact .none

theorem clean_resource (env : Env) (r : ResId) : CleanS (serResource env r).1 := by
  simp only [serResource]
  split
  · split
    · refine .dict ?_ ?_ <;> intro kv hkv <;> simp at hkv <;> rcases hkv with rfl | rfl | rfl
      · intro _; simp [resourceSig, outputSig]
      · intro h; simp [sigKey] at h
      · intro h; simp [sigKey] at h
      · exact .str _
      · exact clean_strOut ..
      · exact clean_strOut ..
    · refine .dict ?_ ?_ <;> intro kv hkv <;> simp at hkv <;> rcases hkv with rfl | rfl
      · intro _; simp [resourceSig, outputSig]
      · intro h; simp [sigKey] at h
      · exact .str _
      · exact clean_strOut ..
  · split <;> exact clean_strOut ..

theorem clean_pair {sig k : String} {v : PV} (hs : sig ≠ outputSig) (hk : k ≠ sigKey) (hv : CleanS v) :
    CleanS (.dict [(sigKey, .str sig), (k, v)]) := by
  refine .dict ?_ ?_ <;> intro kv hkv <;> simp at hkv <;> rcases hkv with rfl | rfl
  · intro _; simpa using hs
  · intro h; exact absurd h hk
  · exact .str _
  · exact hv

/-- Names do not become the reserved key. -/
def NamesOk (env : Env) : Prop := ∀ ty k, k ≠ sigKey → env.mapKey ty k ≠ sigKey

def SerClean (env : Env) (v : PV) : Prop :=
  NoReserved v → ∀ keep ty w d, ser env keep ty v = .ok (w, d) → CleanS w

theorem clean_list {env : Env} {xs : List PV} (ih : ∀ x ∈ xs, SerClean env x) (hr : ∀ x ∈ xs, NoReserved x)
    {keep ty vs d} (h : serList env keep ty xs = .ok (vs, d)) : ∀ v ∈ vs, CleanS v := by
  induction xs generalizing vs d with
  | nil =>
    simp only [serList, Except.ok.injEq, Prod.mk.injEq] at h
    simp [← h.1]
  | cons x xs ihx =>
    obtain ⟨v, d1, vs', d2, h1, h2, rfl, rfl⟩ := serList_cons_ok h
    intro y hy
    rcases List.mem_cons.1 hy with rfl | hy
    · exact ih x (List.mem_cons_self ..) (hr x (List.mem_cons_self ..)) _ _ _ _ h1
    · exact ihx (fun y hy => ih y (List.mem_cons_of_mem _ hy)) (fun y hy => hr y (List.mem_cons_of_mem _ hy)) h2 y hy

theorem clean_kvs {env : Env} (hn : NamesOk env) {kvs : List (String × PV)} (ih : ∀ kv ∈ kvs, SerClean env kv.2)
    (hr : ∀ kv ∈ kvs, NoReserved kv.2) (hk : ∀ kv ∈ kvs, kv.1 ≠ sigKey) {keep ty acc es d}
    (ha : ∀ kv ∈ acc, CleanS kv.2 ∧ kv.1 ≠ sigKey)
    (h : serKvs env keep ty acc kvs = .ok (es, d)) : ∀ kv ∈ es, CleanS kv.2 ∧ kv.1 ≠ sigKey := by
  induction kvs generalizing acc es d with
  | nil =>
    simp only [serKvs, Except.ok.injEq, Prod.mk.injEq] at h
    rw [← h.1]; exact ha
  | cons kv kvs ihx =>
    obtain ⟨k, x⟩ := kv
    obtain ⟨v, d1, d2, h1, h2, rfl⟩ := serKvs_cons_ok h
    refine ihx (fun y hy => ih y (List.mem_cons_of_mem _ hy)) (fun y hy => hr y (List.mem_cons_of_mem _ hy))
      (fun y hy => hk y (List.mem_cons_of_mem _ hy)) ?_ h2
    intro kv hkv
    rcases setKey_mem hkv with rfl | hkv
    · exact ⟨ih (k, x) (List.mem_cons_self ..) (hr (k, x) (List.mem_cons_self ..)) _ _ _ _ h1,
        hn _ _ (hk (k, x) (List.mem_cons_self ..))⟩
    · exact ha kv hkv

theorem clean_fields {env : Env} {kvs : List (String × PV)} (ih : ∀ kv ∈ kvs, SerClean env kv.2)
    (hr : ∀ kv ∈ kvs, NoReserved kv.2) (hk : ∀ kv ∈ kvs, kv.1 ≠ sigKey) {keep c acc es d}
    (ha : ∀ kv ∈ acc, CleanS kv.2 ∧ kv.1 ≠ sigKey)
    (h : serFields env keep c acc kvs = .ok (es, d)) : ∀ kv ∈ es, CleanS kv.2 ∧ kv.1 ≠ sigKey := by
  induction kvs generalizing acc es d with
  | nil =>
    simp only [serFields, Except.ok.injEq, Prod.mk.injEq] at h
    rw [← h.1]; exact ha
  | cons kv kvs ihx =>
    obtain ⟨k, x⟩ := kv
    have ihx' := fun {acc es d} => ihx (acc := acc) (es := es) (d := d)
      (fun y hy => ih y (List.mem_cons_of_mem _ hy)) (fun y hy => hr y (List.mem_cons_of_mem _ hy))
      (fun y hy => hk y (List.mem_cons_of_mem _ hy))
    cases hx : isNone x with
    | true =>
      obtain rfl := isNone_eq hx
      rw [serFields_none] at h
      exact ihx' ha h
    | false =>
      obtain ⟨v, d1, d2, h1, h2, rfl⟩ := serFields_cons_ok hx h
      refine ihx' ?_ h2
      intro kv hkv
      rcases setKey_mem hkv with rfl | hkv
      · exact ⟨ih (k, x) (List.mem_cons_self ..) (hr (k, x) (List.mem_cons_self ..)) _ _ _ _ h1,
          hk (k, x) (List.mem_cons_self ..)⟩
      · exact ha kv hkv

theorem CleanS.ofKeys {kvs : List (String × PV)} (h : ∀ kv ∈ kvs, CleanS kv.2 ∧ kv.1 ≠ sigKey) :
    CleanS (.dict kvs) :=
  .dict (fun kv hkv he => absurd he (h kv hkv).2) (fun kv hkv => (h kv hkv).1)

theorem ser_clean {env : Env} (hov : env.outputValues = false) (hn : NamesOk env) (v : PV) : SerClean env v := by
  induction v using PV.ind with
  | none => intro _ keep ty w d h; simp [ser] at h; rw [← h.1]; exact .none
  | bool b => intro _ keep ty w d h; simp [ser] at h; rw [← h.1]; exact .bool _
  | num b => intro _ keep ty w d h; simp [ser] at h; rw [← h.1]; exact .num _
  | str b => intro _ keep ty w d h; simp [ser] at h; rw [← h.1]; exact .str _
  | unknown => intro _ keep ty w d h; simp [ser] at h; rw [← h.1]; exact .str _
  | asset k s =>
    intro _ keep ty w d h
    simp [ser] at h
    rw [← h.1]
    cases k <;> exact clean_pair (by decide) (by decide) (.str _)
  | archive k s =>
    intro _ keep ty w d h
    simp [ser] at h
    rw [← h.1]
    cases k <;> exact clean_pair (by decide) (by decide) (.str _)
  | oddAsset => intro _ keep ty w d h; simp [ser] at h
  | failing e => intro _ keep ty w d h; simp [ser] at h
  | illegal => intro _ keep ty w d h; simp [ser] at h
  | list xs ih =>
    intro hr keep ty w d h
    obtain ⟨t, vs, _, hv, rfl⟩ := ser_list_ok h
    cases hr with
    | list hr => exact .list (clean_list ih hr hv)
  | dict kvs ih =>
    intro hr keep ty w d h
    obtain ⟨es, hv, rfl⟩ := ser_dict_ok h
    cases hr with
    | dict hk hr => exact .ofKeys (clean_kvs hn ih hr hk (by simp) hv)
  | assetArchive kvs ih =>
    intro hr keep ty w d h
    obtain ⟨es, hv, rfl⟩ := ser_archive_ok h
    cases hr with
    | assetArchive hk hr =>
      exact clean_pair (by decide) (by decide) (.ofKeys (clean_kvs hn ih hr hk (by simp) hv))
  | inputObj c kvs ih =>
    intro hr keep ty w d h
    obtain ⟨es, hv, rfl⟩ := ser_input_ok h
    cases hr with
    | inputObj _ hk hr => exact .ofKeys (clean_fields ih hr hk (by simp) hv)
  | awaitable v ih =>
    intro hr keep ty w d h
    rw [ser] at h
    cases hr with
    | awaitable hr => exact ih hr _ _ _ _ h
  | output rs k s v ih =>
    intro hr keep ty w d h
    obtain ⟨v', pd, hv, rfl, rfl⟩ := ser_output_ok h
    have hl : CleanS v' := by
      cases hr with
      | output _ _ _ hr =>
        rcases hv with ⟨_, rfl, _⟩ | ⟨_, hv⟩
        · exact .none
        · exact ih hr _ _ _ _ hv
    simp only [outForm, hov, Bool.and_false, Bool.false_eq_true, if_false]
    exact clean_finish hl
  | resource r0 =>
    intro _ keep ty w d h
    cases r0 with
    | dep u => simp [ser] at h
    | decl n =>
      simp only [ser, Except.ok.injEq] at h
      have := clean_resource env (.decl n)
      rw [h] at this
      exact this

theorem serProps_clean {env : Env} (hov : env.outputValues = false) (hn : NamesOk env) {typ : Option String}
    {keep : Bool} (htop : ∀ k, k ≠ sigKey → env.topKey typ k ≠ sigKey) {kvs : List (String × PV)} :
    ∀ {acc P : Props}, (∀ kv ∈ acc.fields, CleanW kv.2) → (∀ kv ∈ acc.fields, kv.1 ≠ sigKey) →
    NoReserved (.dict kvs) → serProps env typ keep acc kvs = .ok P →
    (∀ kv ∈ P.fields, CleanW kv.2) ∧ ∀ kv ∈ P.fields, kv.1 ≠ sigKey := by
  induction kvs with
  | nil =>
    intro acc P h1 h2 _ h
    simp only [serProps, Except.ok.injEq] at h
    subst h
    exact ⟨h1, h2⟩
  | cons kv kvs ih =>
    intro acc P h1 h2 hr h
    obtain ⟨k, x⟩ := kv
    cases hr with
    | dict hk hr =>
      have hrest : NoReserved (.dict kvs) :=
        .dict (fun y hy => hk y (List.mem_cons_of_mem _ hy)) (fun y hy => hr y (List.mem_cons_of_mem _ hy))
      obtain ⟨v, d, hv, hc⟩ := serProps_cons_ok h
      rcases hc with ⟨_, hc⟩ | ⟨_, w, hw, hc⟩
      · exact ih h1 h2 hrest hc
      · refine ih ?_ ?_ hrest hc
        · intro kv hkv
          rcases setKey_mem hkv with rfl | hkv
          · exact clean_toWire v (ser_clean hov hn x (hr (k, x) (List.mem_cons_self ..)) _ _ _ _ hv) _ hw
          · exact h1 kv hkv
        · intro kv hkv
          rcases setKey_mem hkv with rfl | hkv
          · exact htop k (hk (k, x) (List.mem_cons_self ..))
          · exact h2 kv hkv

/-! ## Deserialisation -/

theorem noOut_wrap {v : PV} (h : ¬ HasOutput v) : ¬ HasOutput (wrapSecret v) := by
  unfold wrapSecret
  split
  · exact h
  · intro hh
    cases hh with
    | dict hm hx =>
      simp at hm
      rcases hm with ⟨_, rfl⟩ | ⟨_, rfl⟩
      · cases hx
      · exact h hx

theorem noOut_unwrap {v : PV} (h : ¬ HasOutput v) : ¬ HasOutput (unwrapSecret v) := by
  unfold unwrapSecret
  split
  · split
    · rename_i kvs _
      cases hx : kvs.lookup "value" with
      | none => exact h
      | some x => exact fun hh => h (.dict (Wire.lookup_mem hx) hh)
    · exact h
  · exact h

theorem noOut_bubbleList {vs : List PV} (h : ∀ v ∈ vs, ¬ HasOutput v) : ¬ HasOutput (bubbleList vs) := by
  unfold bubbleList
  split
  · apply noOut_wrap
    intro hh
    cases hh with
    | list hm hx =>
      obtain ⟨y, hy, rfl⟩ := List.mem_map.1 hm
      exact noOut_unwrap (h y hy) hx
  · intro hh
    cases hh with
    | list hm hx => exact h _ hm hx

theorem noOut_bubbleDict {v : PV} (h : ¬ HasOutput v) : ¬ HasOutput (bubbleDict v) := by
  unfold bubbleDict
  split
  · rename_i kvs
    split
    · apply noOut_wrap
      intro hh
      cases hh with
      | dict hm hx =>
        obtain ⟨y, hy, he⟩ := List.mem_map.1 hm
        simp only [Prod.mk.injEq] at he
        obtain ⟨rfl, rfl⟩ := he
        exact noOut_unwrap (fun hz => h (.dict hy hz)) hx
    · exact h
  · exact h

theorem noOut_desStr (dry keep : Bool) (s : String) : ¬ HasOutput (desStr dry keep s) := by
  unfold desStr
  split
  · split <;> exact fun h => by cases h
  · exact fun h => by cases h

def DesClean (w : W) : Prop := CleanW w → ∀ env keep v, des env keep w = .ok v → ¬ HasOutput v

theorem struct_clean {kvs : List (String × W)} (ih : ∀ kv ∈ kvs, DesClean kv.2) (hc : ∀ kv ∈ kvs, CleanW kv.2)
    (hs : kvs.lookup sigKey ≠ some (.str outputSig)) {env : Env} {keep ki : Bool} {v : PV}
    (h : deserializeProperties env keep ki kvs = .ok v) : ¬ HasOutput v := by
  have at_ : ∀ {k : String} {w : W} {env : Env} {keep : Bool} {v : PV}, (k, w) ∈ kvs → des env keep w = .ok v →
      ¬ HasOutput v := fun hm hd => ih _ hm (hc _ hm) _ _ _ hd
  cases structCase h with
  | asset _ h1 => obtain ⟨k, s, rfl⟩ := desAsset_ok h1; exact fun h => by cases h
  | archive _ h1 =>
    rcases desArchive_ok h1 with ⟨k, s, rfl⟩ | ⟨w, es, hw, hd, _, rfl⟩
    · exact fun h => by cases h
    · have := at_ (Wire.lookup_mem hw) hd
      intro hh
      cases hh with
      | assetArchive hm hx => exact this (.dict hm hx)
  | secret _ hw hd hv =>
    subst hv
    exact noOut_wrap (at_ (Wire.lookup_mem hw) hd)
  | reference _ h1 =>
    rcases desResource_ok h1 with ⟨r, rfl⟩ | ⟨u, _, ⟨w, hw, _, hd⟩ | ⟨_, rfl⟩ | ⟨_, rfl⟩⟩
    · exact fun h => by cases h
    · exact at_ (Wire.lookup_mem hw) hd
    · exact noOut_desStr _ _ _
    · exact fun h => by cases h
  | output h1 _ => exact absurd h1 hs
  | ordinary _ hcl hv =>
    subst hv
    intro hh
    cases hh with
    | dict hm hx =>
      obtain ⟨_, _, w, hw, hd⟩ := (collect_mem hcl _ _).1 hm
      exact at_ hw hd hx

theorem des_clean (w : W) : DesClean w := by
  induction w using W.ind with
  | null => intro _ env keep v h; cases h; exact fun h => by cases h
  | bool b => intro _ env keep v h; cases h; exact fun h => by cases h
  | num n => intro _ env keep v h; cases h; exact fun h => by cases h
  | str s => intro _ env keep v h; rw [des] at h; cases h; exact noOut_desStr _ _ _
  | list xs ih =>
    intro hc env keep v h
    obtain ⟨vs, hvs, rfl⟩ := des_list_ok h
    cases hc with
    | list hc =>
      apply noOut_bubbleList
      intro v hv
      obtain ⟨x, hx, hd⟩ := desList_mem hvs hv
      exact ih x hx (hc x hx) env keep v hd
  | struct kvs ih =>
    intro hc env keep v h
    obtain ⟨v', h', rfl⟩ := des_struct_ok h
    cases hc with
    | struct hs hc => exact noOut_bubbleDict (struct_clean ih hc hs h')

theorem desProps_clean {env : Env} {keep ki : Bool} {kvs : List (String × W)} {v : PV}
    (h : deserializeProperties env keep ki kvs = .ok v) (hc : ∀ kv ∈ kvs, CleanW kv.2)
    (hk : ∀ kv ∈ kvs, kv.1 ≠ sigKey) : ¬ HasOutput v :=
  struct_clean (fun kv _ => des_clean kv.2) hc (fun hl => hk _ (Wire.lookup_mem hl) rfl) h

end Pulumi.Mocks
