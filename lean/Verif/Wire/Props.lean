import Verif.Wire.Secrecy
import Verif.Wire.Decode
/-! # Lemmas on whole property bags -/
namespace Pulumi.Wire

theorem secretPair_onOutputs : OnOutputs SecretPair := by
  intro a b h
  cases h with
  | mk r r' k v w => exact ⟨_, _, _, _, _, _, _, _, rfl, rfl⟩

theorem outForm_secret {env : Env} (hs : env.secrets = true) {keep : Bool} {rs rs' : List ResId} {k : Bool}
    {v w : PV} {pd pd' : List ResId} {A : Prop} :
    WireSame BothSecret A (outForm env keep rs k true v pd) (outForm env keep rs' k true w pd') := by
  unfold outForm
  split
  · refine .base (.inr ⟨⟨_, rfl, ?_, ?_⟩, ⟨_, rfl, ?_, ?_⟩⟩)
    · rfl
    · cases k <;> simp [List.lookup, sigKey]
    · rfl
    · cases k <;> simp [List.lookup, sigKey]
  · unfold finishOutput
    cases k with
    | false => exact .refl _
    | true => simp only [hs]; exact .base (.inl ⟨⟨_, rfl⟩, ⟨_, rfl⟩⟩)

theorem wireSame_none {B : PV → PV → Prop} {A : Prop} (hB : ∀ v w, B v w → isNone v = isNone w) {v w : PV}
    (h : WireSame B A v w) : isNone v = isNone w := by
  cases h with
  | base h => exact hB _ _ h
  | refl => rfl
  | list => rfl
  | dict => rfl
  | deps => rfl

theorem toWireKvs_setKey {es : List (String × PV)} {fs : List (String × W)} (h : toWireKvs es = some fs) {v : PV} {w : W}
    (hv : toWire v = some w) (k : String) : toWireKvs (setKey es k v) = some (setKey fs k w) := by
  induction es generalizing fs with
  | nil => simp [toWireKvs] at h; subst h; simp [setKey, toWireKvs, hv]
  | cons p es ih =>
    obtain ⟨k0, x⟩ := p
    simp only [toWireKvs] at h
    split at h
    · rename_i w' ws' hw hws
      simp only [Option.some.injEq] at h
      subst h
      simp only [setKey]
      split
      · simp [toWireKvs, hv, hws]
      · simp [toWireKvs, hw, ih hws]
    · cases h

theorem serProps_cons_ok {env : Env} {typ : Option String} {keep : Bool} {acc : Props} {k : String} {x : PV}
    {rest : List (String × PV)} {P : Props} (h : serProps env typ keep acc ((k, x) :: rest) = .ok P) :
    ∃ v d, ser env keep (env.topTy typ k) x = .ok (v, d) ∧
      (v = .none ∧ serProps env typ keep acc rest = .ok P ∨
       v ≠ .none ∧ ∃ w, toWire v = some w ∧ serProps env typ keep
          { fields := setKey acc.fields (env.topKey typ k) w, deps := setKey acc.deps (env.topKey typ k) d } rest
          = .ok P) := by
  rw [serProps, bind_ok] at h
  obtain ⟨⟨v, d⟩, hv, h⟩ := h
  refine ⟨v, d, hv, ?_⟩
  simp only at h
  split at h
  · rename_i hn; exact .inl ⟨isNone_eq hn, h⟩
  · rename_i hn
    right
    refine ⟨fun hh => hn (by rw [hh]; rfl), ?_⟩
    split at h
    · cases h
    · rename_i w hw; exact ⟨w, hw, h⟩

theorem serProps_same {env : Env} {B : PV → PV → Prop} {A : Prop} (hB : ∀ v w, B v w → isNone v = isNone w)
    {typ : Option String} {keep : Bool} (hA : keep = true → env.outputValues = true → A) {kvs kvs' : List (String × PV)}
    (h : KSame (RunsSame env B A) kvs kvs') {acc acc' : Props} {es es' : List (String × PV)}
    (he : toWireKvs es = some acc.fields) (he' : toWireKvs es' = some acc'.fields) (ha : KSame (WireSame B A) es es')
    {P P' : Props} (h1 : serProps env typ keep acc kvs = .ok P) (h2 : serProps env typ keep acc' kvs' = .ok P') :
    ∃ x y, toWireKvs x = some P.fields ∧ toWireKvs y = some P'.fields ∧ KSame (WireSame B A) x y := by
  induction kvs generalizing kvs' acc acc' es es' with
  | nil =>
    rcases h.cases with ⟨_, rfl⟩ | ⟨k, x, y, xs, ys, hh, _⟩
    · cases h1; cases h2
      exact ⟨es, es', he, he', ha⟩
    · cases hh
  | cons kv kvs ih =>
    rcases h.cases with ⟨hh, _⟩ | ⟨k, x, y, xs, ys, hh, rfl, hr, hs⟩
    · cases hh
    · cases hh
      obtain ⟨v, d, hv, h1⟩ := serProps_cons_ok h1
      obtain ⟨v', d', hv', h2⟩ := serProps_cons_ok h2
      have hsame := hr keep _ _ _ _ _ hA hv hv'
      have hnn := wireSame_none hB hsame
      rcases h1 with ⟨rfl, h1⟩ | ⟨hn, w, hw, h1⟩
      · rcases h2 with ⟨rfl, h2⟩ | ⟨hn', w', hw', h2⟩
        · exact ih hs he he' ha h1 h2
        · exact absurd (isNone_eq hnn.symm) hn'
      · rcases h2 with ⟨rfl, h2⟩ | ⟨hn', w', hw', h2⟩
        · exact absurd (isNone_eq hnn) hn
        · exact ih hs (toWireKvs_setKey he hw _) (toWireKvs_setKey he' hw' _) (ha.setKey _ hsame) h1 h2

theorem unknownPair_onOutputs : OnOutputs UnknownPair := by
  intro a b h
  cases h with
  | mk r r' k v w => exact ⟨_, _, _, _, _, _, _, _, rfl, rfl⟩

theorem setKey_lookup_self {α : Type} (kvs : List (String × α)) (k : String) (v : α) :
    (setKey kvs k v).lookup k = some v := by
  induction kvs with
  | nil => simp [setKey]
  | cons p kvs ih =>
    obtain ⟨k', v'⟩ := p
    simp only [setKey]
    split
    · simp [List.lookup]
    · rename_i hne
      have hb : (k == k') = false := by simpa using fun h => hne h.symm
      simp only [List.lookup, hb]
      exact ih

theorem setKey_lookup_ne {α : Type} (kvs : List (String × α)) {k k0 : String} (v : α) (h : k0 ≠ k) :
    (setKey kvs k v).lookup k0 = kvs.lookup k0 := by
  induction kvs with
  | nil =>
    have hb : (k0 == k) = false := by simpa using h
    simp [setKey, List.lookup, hb]
  | cons p kvs ih =>
    obtain ⟨k', v'⟩ := p
    simp only [setKey]
    split
    · rename_i he
      subst he
      have hb : (k0 == k') = false := by simpa using h
      simp [List.lookup, hb]
    · simp only [List.lookup]
      split
      · rfl
      · exact ih

theorem serProps_untouched {env : Env} {typ : Option String} {keep : Bool} {acc : Props} {kvs : List (String × PV)}
    {P : Props} (h : serProps env typ keep acc kvs = .ok P) {k : String} (hk : ∀ kv ∈ kvs, env.topKey typ kv.1 ≠ k) :
    P.deps.lookup k = acc.deps.lookup k ∧ P.fields.lookup k = acc.fields.lookup k := by
  induction kvs generalizing acc with
  | nil => cases h; exact ⟨rfl, rfl⟩
  | cons kv kvs ih =>
    obtain ⟨k0, x⟩ := kv
    have hrest := fun kv hkv => hk kv (List.mem_cons_of_mem (k0, x) hkv)
    have h0 := hk (k0, x) (List.mem_cons_self ..)
    obtain ⟨v, d, _, h⟩ := serProps_cons_ok h
    rcases h with ⟨_, h⟩ | ⟨_, w, _, h⟩
    · exact ih h hrest
    · have := ih h hrest
      rw [this.1, this.2]
      exact ⟨setKey_lookup_ne _ _ (Ne.symm h0), setKey_lookup_ne _ _ (Ne.symm h0)⟩

theorem serProps_entry {env : Env} {typ : Option String} {keep : Bool} {acc : Props} {kvs : List (String × PV)}
    {P : Props} (h : serProps env typ keep acc kvs = .ok P) (hn : (kvs.map fun kv => env.topKey typ kv.1).Nodup)
    {k : String} {x : PV} (hm : (k, x) ∈ kvs) :
    ∃ v d, ser env keep (env.topTy typ k) x = .ok (v, d) ∧
      (v ≠ .none → P.deps.lookup (env.topKey typ k) = some d ∧
        ∃ w, toWire v = some w ∧ P.fields.lookup (env.topKey typ k) = some w) := by
  induction kvs generalizing acc with
  | nil => cases hm
  | cons kv kvs ih =>
    obtain ⟨k0, x0⟩ := kv
    simp only [List.map_cons, List.nodup_cons] at hn
    obtain ⟨v, d, hv, hc⟩ := serProps_cons_ok h
    rcases List.mem_cons.1 hm with hh | hm
    · cases hh
      refine ⟨v, d, hv, fun hne => ?_⟩
      rcases hc with ⟨hc, _⟩ | ⟨_, w, hw, hc⟩
      · exact absurd hc hne
      · have := serProps_untouched hc (k := env.topKey typ k) (fun kv hkv hh =>
          hn.1 (List.mem_map.2 ⟨kv, hkv, hh⟩))
        rw [this.1, this.2]
        exact ⟨setKey_lookup_self .., w, hw, setKey_lookup_self ..⟩
    · rcases hc with ⟨_, hc⟩ | ⟨_, w, _, hc⟩
      · exact ih hc hn.2 hm
      · exact ih hc hn.2 hm

theorem closed_ne_unknown : Closed (fun v => v ≠ .unknown) := by
  constructor <;> intros <;> simp

theorem closed_ne_sentinel : Closed (fun v => v ≠ .str UNKNOWN) := by
  constructor <;> intros <;> try simp
  assumption

theorem closed_visible : Closed VisibleKeys := by
  constructor
  case dict =>
    intro kvs h kvs' h' kv hkv
    rcases h' with h' | h' <;> cases h'
    exact h kv hkv
  case assetArchive =>
    intro kvs h kvs' h' kv hkv
    rcases h' with h' | h' <;> cases h'
    exact h kvs (.inl rfl) kv hkv
  all_goals
    intros
    intro kvs h'
    rcases h' with h' | h' <;> cases h'

end Pulumi.Wire
