import Verif.Mocks.Spec
import Verif.Wire.Names
import Verif.Wire.Decode
import Verif.Wire.Props
import Verif.Urn.Lemmas
/-! # Lemmas about the mock monitor -/
namespace Pulumi.Mocks
open Pulumi.Wire
open Pulumi.Urn (Text)

/-! ## The `resources` dict -/

theorem setReg_self (rs : List (Text × Registration)) (k : Text) (v : Registration) :
    (setReg rs k v).lookup k = some v := by
  induction rs with
  | nil => simp [setReg]
  | cons x rs ih =>
    obtain ⟨k', v'⟩ := x
    simp only [setReg]
    by_cases h : k' = k
    · rw [if_pos h]; simp
    · rw [if_neg h, List.lookup_cons, ih]
      have : (k == k') = false := by simpa using fun e => h e.symm
      rw [this]

theorem setReg_ne (rs : List (Text × Registration)) {k u : Text} (v : Registration) (h : u ≠ k) :
    (setReg rs k v).lookup u = rs.lookup u := by
  induction rs with
  | nil =>
    simpa [setReg] using h
  | cons x rs ih =>
    obtain ⟨k', v'⟩ := x
    simp only [setReg]
    by_cases hk : k' = k
    · rw [if_pos hk, List.lookup_cons, List.lookup_cons]
      have h1 : (u == k) = false := by simpa using h
      have h2 : (u == k') = false := by simpa [hk] using h
      rw [h1, h2]
    · rw [if_neg hk, List.lookup_cons, List.lookup_cons, ih]

/-! ## Two serialisations of the same state: on its own, and as an entry of a dict -/

/-- The entries that are not null. -/
def nonNull (ws : List (String × W)) : List (String × W) :=
  ws.filter fun kw => match kw.2 with | .null => false | _ => true

theorem toWire_null {v : PV} {w : W} (h : toWire v = some w) : w = .null ↔ v = .none := by
  cases v <;> simp [toWire] at h <;> (try subst h) <;> simp
  · obtain ⟨a, _, rfl⟩ := h; simp
  · obtain ⟨a, _, rfl⟩ := h; simp

theorem toWireKvs_append {es : List (String × PV)} {ws : List (String × W)} (h : toWireKvs es = some ws)
    {k : String} {v : PV} {w : W} (hw : toWire v = some w) :
    toWireKvs (es ++ [(k, v)]) = some (ws ++ [(k, w)]) := by
  induction es generalizing ws with
  | nil => simp [toWireKvs] at h; subst h; simp [toWireKvs, hw]
  | cons e es ih =>
    obtain ⟨k', x⟩ := e
    simp only [toWireKvs] at h
    split at h
    · rename_i w' ws' h1 h2
      cases h
      simp [toWireKvs, h1, ih h2]
    · cases h

theorem setKey_fresh {α : Type} {kvs : List (String × α)} {k : String} (v : α) (h : k ∉ kvs.map (·.1)) :
    setKey kvs k v = kvs ++ [(k, v)] := by
  induction kvs with
  | nil => rfl
  | cons x kvs ih =>
    obtain ⟨k', v'⟩ := x
    simp only [List.map_cons, List.mem_cons, not_or] at h
    rw [setKey, if_neg (fun e => h.1 e.symm), ih h.2]; rfl

theorem nonNull_append (ws : List (String × W)) (k : String) (w : W) :
    nonNull (ws ++ [(k, w)]) = nonNull ws ++ (match w with | .null => [] | w => [(k, w)]) := by
  cases w <;> simp [nonNull]

theorem ser_state {env : Env} (ht : env.transform = none) {kvs : List (String × PV)} :
    ∀ {acc : Props} {es : List (String × PV)} {ws : List (String × W)} {P : Props},
    serProps env none false acc kvs = .ok P → toWireKvs es = some ws → acc.fields = nonNull ws →
    ((es ++ kvs).map (·.1)).Nodup →
    ∃ es' d ws', serKvs env false .any es kvs = .ok (es', d) ∧ toWireKvs es' = some ws' ∧
      P.fields = nonNull ws' ∧ es'.map (·.1) = (es ++ kvs).map (·.1) := by
  have htr : ∀ k, env.translate k = k := fun k => by simp [Env.translate, ht]
  induction kvs with
  | nil =>
    intro acc es ws P h hw ha hn
    simp only [serProps, Except.ok.injEq] at h
    subst h
    exact ⟨es, [], ws, rfl, hw, ha, by simp⟩
  | cons kv kvs ih =>
    intro acc es ws P h hw ha hn
    obtain ⟨k, x⟩ := kv
    have hfresh : k ∉ es.map (·.1) := by
      intro hk
      rw [List.map_append, List.nodup_append] at hn
      exact hn.2.2 k hk k (by simp) rfl
    have hkeys : (ws.map (·.1)) = es.map (·.1) := toWireKvs_keys hw
    obtain ⟨v, d, hv, hr⟩ := serProps_cons_ok h
    simp only [Env.topTy, Env.topKey, htr] at hv hr
    have hset : setKey es k v = es ++ [(k, v)] := setKey_fresh v hfresh
    have hcont : ∃ w acc', toWire v = some w ∧ acc'.fields = nonNull (ws ++ [(k, w)]) ∧
        serProps env none false acc' kvs = .ok P := by
      rcases hr with ⟨rfl, hr⟩ | ⟨hne, w, hw', hr⟩
      · exact ⟨.null, acc, rfl, by rw [nonNull_append, ha]; simp, hr⟩
      · refine ⟨w, _, hw', ?_, hr⟩
        have hf : k ∉ (nonNull ws).map (·.1) := by
          intro hk
          apply hfresh
          rw [← hkeys]
          obtain ⟨x, hx, hxe⟩ := List.mem_map.1 hk
          exact List.mem_map.2 ⟨x, (List.mem_filter.1 hx).1, hxe⟩
        rw [nonNull_append]
        simp only
        rw [ha, setKey_fresh w hf]
        cases w with
        | null => exact absurd ((toWire_null hw').1 rfl) hne
        | _ => rfl
    obtain ⟨w, acc', hw1, ha', hP⟩ := hcont
    obtain ⟨es', d', ws', h1, h2, h3, h4⟩ := ih (acc := acc') (es := es ++ [(k, v)]) (ws := ws ++ [(k, w)]) hP
      (toWireKvs_append hw hw1) ha' (by simpa using hn)
    refine ⟨es', d ++ d', ws', ?_, h2, h3, by rw [h4]; simp⟩
    simp only [serKvs, Env.mapKey, Env.mapTy, htr, hv, hset, h1, bind, Except.bind, pure, Except.pure]

theorem lookup_nonNull {ws : List (String × W)} {k : String} (h : k ∉ ws.map (·.1)) :
    (nonNull ws).lookup k = none := by
  apply lookup_none
  intro hk
  apply h
  obtain ⟨x, hx, hxe⟩ := List.mem_map.1 hk
  exact List.mem_map.2 ⟨x, (List.mem_filter.1 hx).1, hxe⟩

theorem collect_nonNull {env : Env} {keep ki : Bool} (ws : List (String × W)) :
    collect ki (desKvs env keep (nonNull ws)) = collect ki (desKvs env keep ws) := by
  induction ws with
  | nil => rfl
  | cons kw ws ih =>
    obtain ⟨k, w⟩ := kw
    cases w with
    | null =>
      have : nonNull ((k, W.null) :: ws) = nonNull ws := by simp [nonNull]
      rw [this, ih]
      simp only [desKvs, collect, des, isNone]
      split <;> simp
    | _ =>
      simp only [nonNull, List.filter_cons, if_true] at ih ⊢
      simp only [desKvs, collect, ih]

/-- Null entries make no difference to what is read. -/
theorem des_nonNull {env : Env} {keep ki : Bool} {ws : List (String × W)} (h : sigKey ∉ ws.map (·.1)) :
    deserializeProperties env keep ki (nonNull ws) = deserializeProperties env keep ki ws := by
  rw [deserializeProperties, deserializeProperties, desStruct, desStruct, lookup_nonNull h, lookup_none h]
  simp only
  rw [collect_nonNull]

/-- Serialising a registration: its URN, its id, and a state that reads like the state serialised on its own. -/
theorem serialize_reg {env : Env} (ht : env.transform = none) {r : Registration} {obj : List (String × W)}
    (h : serialize env r.state = .ok obj) (hn : (r.state.map (·.1)).Nodup) (hs : sigKey ∉ r.state.map (·.1)) :
    ∃ ret kvs, serialize env r.asDict = .ok ret ∧ ret.lookup "urn" = some (.str (String.ofList r.urn)) ∧
      ret.lookup "id" = r.id.map .str ∧ ret.lookup "state" = some (.struct kvs) ∧
      ∀ env' keep ki, deserializeProperties env' keep ki kvs = deserializeProperties env' keep ki obj := by
  have htr : ∀ k, env.translate k = k := fun k => by simp [Env.translate, ht]
  unfold serialize at h
  split at h
  · rename_i P hP
    cases h
    obtain ⟨es, d, ws, h1, h2, h3, h4⟩ := ser_state ht (acc := ⟨[], []⟩) (es := []) (ws := []) hP rfl rfl
      (by simpa using hn)
    have hsk : sigKey ∉ ws.map (·.1) := by
      rw [toWireKvs_keys h2, h4]; simpa using hs
    have hd : toWire (.dict es) = some (.struct ws) := by simp [toWire, h2]
    have hkey : ∀ env' keep ki, deserializeProperties env' keep ki ws = deserializeProperties env' keep ki P.fields := by
      intro env' keep ki
      rw [h3, des_nonNull hsk]
    cases hid : r.id with
    | none =>
      refine ⟨[("urn", .str (String.ofList r.urn)), ("state", .struct ws)], ws, ?_, rfl, rfl, rfl, hkey⟩
      simp [serialize, serializeProperties, Registration.asDict, hid, serProps, Env.topKey, Env.topTy, htr, ser,
        h1, bind, Except.bind, isNone, pure, Except.pure, h2, toWire, setKey]
    | some i =>
      refine ⟨[("urn", .str (String.ofList r.urn)), ("id", .str i), ("state", .struct ws)], ws, ?_, rfl, rfl, rfl,
        hkey⟩
      simp [serialize, serializeProperties, Registration.asDict, hid, serProps, Env.topKey, Env.topTy, htr, ser,
        h1, bind, Except.bind, isNone, pure, Except.pure, h2, toWire, setKey]
  · cases h

/-! ## URNs -/

theorem qualifiedType_text {u : Urn.Urn} (h : u.Clean) (t : Text) :
    qualifiedType u.text t = .ok (u.type_ ++ '$' :: t) := by
  have hne : u.text ≠ [] := by
    unfold Urn.Urn.text
    simp [Urn.prefix_eq, Urn.urnPrefix]
  rw [qualifiedType, if_neg hne, Urn.splitSep_text h]
  simp only [List.getElem?_cons_succ, List.getElem?_cons_zero]
  rw [Urn.splitChar_qualify (fun x hx => (h.ancestors x hx).2) h.type_.2]
  simp [lastPiece]

/-- Only the parent's own type is part of the URN of its child. -/
theorem makeUrn_child (amb : Urn.Ambient) {u : Urn.Urn} (h : u.Clean) (t n : Text) :
    makeUrn amb u.text t n = .ok (Urn.Urn.mk amb.stack amb.project [u.type_] t n).text := by
  rw [makeUrn, qualifiedType_text h, Urn.text_eq]
  simp [Except.map, Urn.Urn.stem, Urn.qualify]

theorem makeUrn_root (amb : Urn.Ambient) (t n : Text) :
    makeUrn amb [] t n = .ok (Urn.Urn.mk amb.stack amb.project [] t n).text := by
  rw [makeUrn, qualifiedType, if_pos rfl, Urn.text_eq]
  simp [Except.map, Urn.Urn.stem, Urn.qualify]

theorem text_inj {u v : Urn.Urn} (hu : u.Clean) (hv : v.Clean) (h : u.text = v.text) :
    u.ancestors = v.ancestors ∧ u.type_ = v.type_ ∧ u.name = v.name := by
  have e := congrArg Urn.splitSep h
  rw [Urn.splitSep_text hu, Urn.splitSep_text hv] at e
  simp only [List.cons.injEq, and_true] at e
  have q := congrArg (Urn.splitChar '$') e.2.2.1
  rw [Urn.splitChar_qualify (fun x hx => (hu.ancestors x hx).2) hu.type_.2,
    Urn.splitChar_qualify (fun x hx => (hv.ancestors x hx).2) hv.type_.2] at q
  have := List.append_inj' q rfl
  exact ⟨this.1, by simpa using this.2, e.2.2.2⟩

theorem emap_ok {α β : Type} {x : Except Err α} {f : α → β} {b : β} :
    x.map f = .ok b ↔ ∃ a, x = .ok a ∧ f a = b := by
  cases x <;> simp [Except.map]

theorem makeUrn_ne_unknown {amb : Urn.Ambient} {p t n u : Text} (h : makeUrn amb p t n = .ok u) :
    String.ofList u ≠ UNKNOWN := by
  rw [makeUrn, emap_ok] at h
  obtain ⟨q, _, rfl⟩ := h
  intro e
  have := congrArg String.toList e
  rw [String.toList_ofList] at this
  have h2 : UNKNOWN.toList.head? = some '0' := by decide
  rw [← this] at h2
  simp [Urn.urnPrefix] at h2

end Pulumi.Mocks
