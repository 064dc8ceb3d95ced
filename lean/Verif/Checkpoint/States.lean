import Verif.Checkpoint.DeploymentSpec
import Verif.Checkpoint.Theorems
/-! # What a state file keeps of a stack (C182, C183) -/
namespace Pulumi.Checkpoint

open Wire (W)
open Engine (EV Blob RefId sigKey assetSig archiveSig secretSig resourceSig textField)

/-! ## Lemmas -/

theorem collectKvs_append (a b : List (String × W)) : collectKvs (a ++ b) = collectKvs a ++ collectKvs b := by
  induction a with
  | nil => rfl
  | cons p a ih =>
    obtain ⟨k, w⟩ := p
    rw [List.cons_append, collectKvs, collectKvs, ih, List.append_assoc]

theorem collect_text (k s : String) : collectKvs (textField k s) = [] := by
  unfold textField
  split
  · rfl
  · simp [collectKvs, collect]

theorem collect_no_sig {kvs : List (String × W)} (h : ∀ kv ∈ kvs, kv.1 ≠ reservedName) :
    collect (.struct kvs) = collectKvs kvs := by
  have : kvs.lookup sigKey = none := lookup_none_of_ne h
  rw [collect, this]

theorem collect_blob {b : Blob} (h : StorableBlob b) : collect (blobW b) = [] := by
  induction h with
  | asset =>
    rw [blobW, collect]
    have hs : ∀ l : List (String × W), ([(sigKey, W.str assetSig)] ++ l).lookup sigKey = some (.str assetSig) := fun l => by simp
    simp only [List.append_assoc]
    rw [hs]
    have : assetSig ≠ secretSig := by decide
    simp only [if_neg this, collectKvs_append, collect_text]
    rfl
  | archive =>
    rw [blobW, collect]
    have hs : ∀ l : List (String × W), ([(sigKey, W.str archiveSig)] ++ l).lookup sigKey = some (.str archiveSig) := fun l => by simp
    simp only [List.append_assoc]
    rw [hs]
    have : archiveSig ≠ secretSig := by decide
    simp only [if_neg this, collectKvs_append, collect_text]
    rfl
  | @assets h p u ms _ _ _ hk hes ih =>
    clear hes
    have key : (∀ kv ∈ membersW ms, kv.1 ≠ reservedName) ∧ collectKvs (membersW ms) = [] := by
      induction ms with
      | nil => exact ⟨fun kv h => (by cases h), rfl⟩
      | cons m ms ihm =>
        obtain ⟨k, b⟩ := m
        obtain ⟨h1, h2⟩ := ihm (fun m hm => hk m (List.mem_cons_of_mem _ hm)) (fun m hm => ih m (List.mem_cons_of_mem _ hm))
        rw [membersW]
        refine ⟨fun kv hkv => ?_, ?_⟩
        · rcases List.mem_cons.1 hkv with rfl | hkv
          · exact hk (k, b) (List.mem_cons_self ..)
          · exact h1 kv hkv
        · rw [collectKvs, ih (k, b) (List.mem_cons_self ..), h2]
          rfl
    rw [blobW, collect]
    have hs : ∀ l : List (String × W), ([(sigKey, W.str archiveSig)] ++ l).lookup sigKey = some (.str archiveSig) := fun l => by simp
    simp only [List.append_assoc]
    rw [hs]
    have : archiveSig ≠ secretSig := by decide
    simp only [if_neg this, collectKvs_append, collect_text, collectKvs, collect_no_sig key.1, key.2]
    rfl

theorem collect_ref (urn : String) (id : RefId) (version : String) : collect (refW urn id version) = [] := by
  unfold refW
  rw [collect]
  have hs : ∀ l : List (String × W), ([(sigKey, W.str resourceSig), ("urn", .str urn), ("packageVersion", .str version)] ++
    l).lookup sigKey = some (.str resourceSig) := fun l => by simp
  rw [hs]
  have : resourceSig ≠ secretSig := by decide
  simp only [if_neg this, collectKvs_append]
  cases id <;> rfl

theorem collect_secret (b : Bool) (p c x : String) (h : x ∈ collect (secretW b p c)) : x = c := by
  unfold secretW at h
  rw [collect] at h
  simp only [List.lookup, beq_self_eq_true, if_true] at h
  have e1 : ("ciphertext" == sigKey) = false := by decide
  rw [e1] at h
  cases b with
  | true =>
    simp only [if_true] at h
    unfold textField at h
    split at h
    · rename_i hl
      split at hl
      · cases hl
      · simp [List.lookup] at hl
    · cases h
  | false =>
    simp only [Bool.false_eq_true, if_false] at h
    unfold textField at h
    split at h
    · rename_i hl
      split at hl
      · cases hl
      · simp [List.lookup] at hl
        subst hl
        simpa using h
    · cases h

/-- The ciphertexts in what is written can be decrypted. -/
theorem collect_opens {J : Codec} {b : Bool} {v : EV} (h : Storable v) {σ : Type} {I : σ → Prop} {enc : Encrypter σ}
    {dec : Decrypter} (ho : Opens J I enc dec) {s : σ} {w s'} (hI : I s) (hw : serialize J b enc v s = .ok (w, s')) :
    I s' ∧ ∀ c ∈ collect w, ∃ p, dec c = .ok p := by
  have leaf : ∀ w : W, collect w = [] → ∀ c ∈ collect w, ∃ p, dec c = .ok p := by
    intro w hw c hc
    rw [hw] at hc
    cases hc
  induction h generalizing s w s' with
  | null => rw [serialize] at hw; cases hw; exact ⟨hI, leaf _ rfl⟩
  | bool => rw [serialize] at hw; cases hw; exact ⟨hI, leaf _ rfl⟩
  | num => rw [serialize] at hw; cases hw; exact ⟨hI, leaf _ rfl⟩
  | str => rw [serialize] at hw; cases hw; exact ⟨hI, leaf _ rfl⟩
  | computed => rw [serialize] at hw; cases hw; exact ⟨hI, leaf _ rfl⟩
  | output => rw [serialize] at hw; cases hw; exact ⟨hI, leaf _ rfl⟩
  | blob hb => rw [serialize] at hw; cases hw; exact ⟨hI, leaf _ (collect_blob hb)⟩
  | ref => rw [serialize] at hw; cases hw; exact ⟨hI, leaf _ (collect_ref _ _ _)⟩
  | @secret e _ ih =>
    rw [serialize, serialize_nop] at hw
    simp only [bind, Except.bind] at hw
    cases h2 : enc (J.print (plain J b e)) s with
    | error x => rw [h2] at hw; cases hw
    | ok r =>
      rw [h2] at hw
      cases hw
      obtain ⟨hd, _, _, hI'⟩ := ho _ s r.1 r.2 hI h2
      exact ⟨hI', fun c hc => by rw [collect_secret _ _ _ _ hc]; exact ⟨_, hd⟩⟩
  | @array es hes ih =>
    clear hes
    have key : ∀ s ws s', I s → serializeList J b enc es s = .ok (ws, s') → I s' ∧ ∀ c ∈ collectList ws, ∃ p, dec c = .ok p := by
      clear hw
      induction es with
      | nil => intro s ws s' hI h; rw [serializeList] at h; cases h; exact ⟨hI, fun c hc => by cases hc⟩
      | cons e es ihl =>
        intro s ws s' hI h
        rw [serializeList] at h
        cases h1 : serialize J b enc e s with
        | error x => rw [h1] at h; cases h
        | ok r =>
          rw [h1] at h
          simp only [bind, Except.bind] at h
          cases h2 : serializeList J b enc es r.2 with
          | error x => rw [h2] at h; cases h
          | ok r2 =>
            rw [h2] at h
            cases h
            obtain ⟨hI1, k1⟩ := ih e (List.mem_cons_self ..) hI h1
            obtain ⟨hI2, k2⟩ := ihl (fun x hx => ih x (List.mem_cons_of_mem _ hx)) _ _ _ hI1 h2
            refine ⟨hI2, fun c hc => ?_⟩
            rw [collectList] at hc
            rcases List.mem_append.1 hc with hc | hc
            · exact k1 c hc
            · exact k2 c hc
    rw [serialize] at hw
    cases h1 : serializeList J b enc es s with
    | error x => rw [h1] at hw; cases hw
    | ok r => rw [h1] at hw; cases hw; rw [collect]; exact key _ _ _ hI h1
  | @object kvs hk hes ih =>
    clear hes
    have key : ∀ s ws s', I s → serializeKvs J b enc kvs s = .ok (ws, s') →
        I s' ∧ (∀ kv ∈ ws, kv.1 ≠ reservedName) ∧ ∀ c ∈ collectKvs ws, ∃ p, dec c = .ok p := by
      clear hw
      induction kvs with
      | nil =>
        intro s ws s' hI h
        rw [serializeKvs] at h
        cases h
        exact ⟨hI, fun c hc => (by cases hc), fun c hc => (by cases hc)⟩
      | cons kv kvs ihl =>
        obtain ⟨k, e⟩ := kv
        intro s ws s' hI h
        rw [serializeKvs] at h
        cases h1 : serialize J b enc e s with
        | error x => rw [h1] at h; cases h
        | ok r =>
          rw [h1] at h
          simp only [bind, Except.bind] at h
          cases h2 : serializeKvs J b enc kvs r.2 with
          | error x => rw [h2] at h; cases h
          | ok r2 =>
            rw [h2] at h
            cases h
            obtain ⟨hI1, k1⟩ := ih (k, e) (List.mem_cons_self ..) hI h1
            obtain ⟨hI2, k2, k3⟩ := ihl (fun x hx => hk x (List.mem_cons_of_mem _ hx)) (fun x hx => ih x (List.mem_cons_of_mem _ hx))
              _ _ _ hI1 h2
            refine ⟨hI2, fun kv hkv => ?_, fun c hc => ?_⟩
            · rcases List.mem_cons.1 hkv with rfl | hkv
              · exact hk (k, e) (List.mem_cons_self ..)
              · exact k2 kv hkv
            · rw [collectKvs] at hc
              rcases List.mem_append.1 hc with hc | hc
              · exact k1 c hc
              · exact k3 c hc
    rw [serialize] at hw
    cases h1 : serializeKvs J b enc kvs s with
    | error x => rw [h1] at hw; cases hw
    | ok r =>
      rw [h1] at hw
      cases hw
      obtain ⟨k1, k2, k3⟩ := key _ _ _ hI h1
      rw [collect_no_sig k2]
      exact ⟨k1, k3⟩

theorem bulk_ok {dec : Decrypter} {cs : List String} (h : ∀ c ∈ cs, ∃ p, dec c = .ok p) :
    ∃ cache, bulkDecrypt dec cs = .ok cache := by
  induction cs with
  | nil => exact ⟨[], rfl⟩
  | cons c cs ih =>
    obtain ⟨p, hp⟩ := h c (List.mem_cons_self ..)
    obtain ⟨cache, hc⟩ := ih fun x hx => h x (List.mem_cons_of_mem _ hx)
    exact ⟨(c, p) :: cache, by rw [bulkDecrypt, hp, hc]; rfl⟩

theorem map_bulk {dec : Decrypter} {cs cache} (h : bulkDecrypt dec cs = .ok cache) : mapDecrypter cache dec = dec := by
  funext c
  unfold mapDecrypter
  cases hl : cache.lookup c with
  | none => rfl
  | some p => exact ((bulk_lookup h c).1 p hl).symm

/-- The properties of a resource come back. -/
theorem props_read {J : Codec} (hJ : J.Faithful) {b : Bool} {kvs : List (String × EV)} (h : Storable (.object kvs)) {σ : Type}
    {I : σ → Prop} {enc : Encrypter σ} {dec enc' : Decrypter} (ho : Opens J I enc dec)
    (henc : b = true → ∀ p, ∃ x, enc' p = .ok x) {s : σ} {ws s'} (hI : I s)
    (hw : serializeKvs J b enc kvs s = .ok (ws, s')) :
    I s' ∧ (∀ c ∈ collect (.struct ws), ∃ p, dec c = .ok p) ∧
      ∃ n, ∀ m, n ≤ m → eachProp (deserialize J m dec enc') ws = .ok (keptProps kvs) := by
  have hs : serialize J b enc (.object kvs) s = .ok (.struct ws, s') := by rw [serialize, hw]; rfl
  obtain ⟨h1, h2⟩ := collect_opens h ho hI hs
  refine ⟨h1, h2, ?_⟩
  cases h with
  | object hk hes =>
    clear hs h1 h2 hk
    induction kvs generalizing s ws with
    | nil => rw [serializeKvs] at hw; cases hw; exact ⟨0, fun _ _ => rfl⟩
    | cons kv kvs ih =>
      obtain ⟨k, e⟩ := kv
      rw [serializeKvs] at hw
      cases h1 : serialize J b enc e s with
      | error x => rw [h1] at hw; cases hw
      | ok r =>
        rw [h1] at hw
        simp only [bind, Except.bind] at hw
        cases h2 : serializeKvs J b enc kvs r.2 with
        | error x => rw [h2] at hw; cases hw
        | ok r2 =>
          rw [h2] at hw
          cases hw
          obtain ⟨hI1, b1⟩ := value_read hJ b (hes (k, e) (List.mem_cons_self ..)) I enc dec enc' ho henc s r.1 r.2 hI h1
          obtain ⟨n, hn⟩ := exists_bound b1 (ih hI1 h2 fun x hx => hes x (List.mem_cons_of_mem _ hx))
          exact ⟨n, fun m hm => by rw [keptProps]; exact eachProp_cons (hn m hm).1 (hn m hm).2⟩

theorem timeouts_back (t : Timeouts) : (if t.isNotEmpty then some t else none).getD ⟨0, 0, 0⟩ = t := by
  unfold Timeouts.isNotEmpty
  obtain ⟨a, b, c⟩ := t
  by_cases ha : a = 0
  · by_cases hb : b = 0
    · by_cases hc : c = 0
      · subst ha hb hc; rfl
      · simp [hc]
    · simp [hb]
  · simp [ha]

/-- A resource comes back. -/
theorem resource_read {J : Codec} (hJ : J.Faithful) {b : Bool} {r : State} (h : StorableState r) {σ : Type}
    {I : σ → Prop} {enc : Encrypter σ} {dec enc' : Decrypter} (ho : Opens J I enc dec)
    (henc : b = true → ∀ p, ∃ x, enc' p = .ok x) {s : σ} {w s'} (hI : I s)
    (hw : serializeResource J b enc r s = .ok (w, s')) :
    I s' ∧ (∀ c ∈ collect (.struct w.inputs) ++ collect (.struct w.outputs), ∃ p, dec c = .ok p) ∧
      ∃ n, ∀ m, n ≤ m → deserializeResource J m dec enc' w = .ok (keptState r) := by
  unfold serializeResource at hw
  rw [if_neg h.urn] at hw
  simp only [bind, Except.bind, pure, Except.pure] at hw
  cases h1 : serializeKvs J b enc r.inputs s with
  | error x => rw [h1] at hw; cases hw
  | ok r1 =>
    rw [h1] at hw
    simp only at hw
    cases h2 : serializeKvs J b enc r.outputs r1.2 with
    | error x => rw [h2] at hw; cases hw
    | ok r2 =>
      rw [h2] at hw
      simp only [Except.ok.injEq, Prod.mk.injEq] at hw
      obtain ⟨rfl, rfl⟩ := hw
      obtain ⟨hI1, c1, b1⟩ := props_read hJ h.inputs ho henc hI h1
      obtain ⟨hI2, c2, b2⟩ := props_read hJ h.outputs ho henc hI1 h2
      obtain ⟨n, hn⟩ := exists_bound b1 b2
      refine ⟨hI2, fun c hc => ?_, n, fun m hm => ?_⟩
      · rcases List.mem_append.1 hc with hc | hc
        · exact c1 c hc
        · exact c2 c hc
      · have hid : (!r.custom && r.id != "") = false := by
          cases hc : r.custom with
          | true => rfl
          | false => simp [h.id hc]
        unfold deserializeResource
        simp only [(hn m hm).1, (hn m hm).2, bind, Except.bind, pure, Except.pure, if_neg h.urn, if_neg h.type, hid,
          Bool.false_eq_true, if_false, timeouts_back]
        rfl

theorem resources_read {J : Codec} (hJ : J.Faithful) {b : Bool} {rs : List State} (h : ∀ r ∈ rs, StorableState r) {σ : Type}
    {I : σ → Prop} {enc : Encrypter σ} {dec enc' : Decrypter} (ho : Opens J I enc dec)
    (henc : b = true → ∀ p, ∃ x, enc' p = .ok x) {s : σ} {ws s'} (hI : I s)
    (hw : serializeResources J b enc rs s = .ok (ws, s')) :
    I s' ∧ (∀ c ∈ collectResources ws, ∃ p, dec c = .ok p) ∧
      ∃ n, ∀ m, n ≤ m → deserializeResources J m dec enc' ws = .ok (rs.map keptState) := by
  induction rs generalizing s ws with
  | nil => rw [serializeResources] at hw; cases hw; exact ⟨hI, fun c hc => (by cases hc), 0, fun _ _ => rfl⟩
  | cons r rs ih =>
    rw [serializeResources] at hw
    cases h1 : serializeResource J b enc r s with
    | error x => rw [h1] at hw; cases hw
    | ok r1 =>
      rw [h1] at hw
      simp only [bind, Except.bind] at hw
      cases h2 : serializeResources J b enc rs r1.2 with
      | error x => rw [h2] at hw; cases hw
      | ok r2 =>
        rw [h2] at hw
        cases hw
        obtain ⟨hI1, c1, b1⟩ := resource_read hJ (h r (List.mem_cons_self ..)) ho henc hI h1
        obtain ⟨hI2, c2, b2⟩ := ih (fun x hx => h x (List.mem_cons_of_mem _ hx)) hI1 h2
        obtain ⟨n, hn⟩ := exists_bound b1 b2
        refine ⟨hI2, fun c hc => ?_, n, fun m hm => ?_⟩
        · rw [collectResources] at hc
          rcases List.mem_append.1 hc with hc | hc
          · exact c1 c hc
          · exact c2 c hc
        · rw [deserializeResources, (hn m hm).1, (hn m hm).2]
          rfl

theorem operations_read {J : Codec} (hJ : J.Faithful) {b : Bool} {ops : List (State × String)}
    (h : ∀ o ∈ ops, StorableState o.1) {σ : Type} {I : σ → Prop} {enc : Encrypter σ} {dec enc' : Decrypter}
    (ho : Opens J I enc dec) (henc : b = true → ∀ p, ∃ x, enc' p = .ok x) {s : σ} {ws s'} (hI : I s)
    (hw : serializeOperations J b enc ops s = .ok (ws, s')) :
    ∃ n, ∀ m, n ≤ m → deserializeOperations J m dec enc' ws = .ok (ops.map fun o => (keptState o.1, o.2)) := by
  induction ops generalizing s ws with
  | nil => rw [serializeOperations] at hw; cases hw; exact ⟨0, fun _ _ => rfl⟩
  | cons o ops ih =>
    obtain ⟨r, t⟩ := o
    rw [serializeOperations] at hw
    cases h1 : serializeResource J b enc r s with
    | error x => rw [h1] at hw; cases hw
    | ok r1 =>
      rw [h1] at hw
      simp only [bind, Except.bind] at hw
      cases h2 : serializeOperations J b enc ops r1.2 with
      | error x => rw [h2] at hw; cases hw
      | ok r2 =>
        rw [h2] at hw
        cases hw
        obtain ⟨hI1, _, b1⟩ := resource_read hJ (h (r, t) (List.mem_cons_self ..)) ho henc hI h1
        obtain ⟨n, hn⟩ := exists_bound b1 (ih (fun x hx => h x (List.mem_cons_of_mem _ hx)) hI1 h2)
        refine ⟨n, fun m hm => ?_⟩
        rw [deserializeOperations, (hn m hm).1, (hn m hm).2]
        rfl

/-! ## Theorems -/

/-- **C182.** The state of a stack, resources and pending operations, is written with a secrets manager. Reading the file finds
the manager by its type and state, and everything else as it was, but for what is unknown in properties. -/
theorem states_come_back_partial {σ : Type} {J : Codec} (hJ : J.Faithful) (showSecrets : Bool) (I : σ → Prop) (given own : Option (Manager σ))
    (m m' : Manager σ) (hm : given.or own = some m) (ofType : String → String → Except Err (Manager σ))
    (hty : m.type ≠ "") (hof : ofType m.type m.state = .ok m') (ho : Opens J I m.enc m'.dec)
    (henc : showSecrets = true → ∀ p, ∃ c s, m'.enc p m'.start = .ok (c, s))
    (rs : List State) (ops : List (State × String)) (hrs : ∀ r ∈ rs, StorableState r) (hops : ∀ o ∈ ops, StorableState o.1)
    (s : σ) (hI : I s) (d : Deployment) (s' : σ)
    (hw : serializeDeployment J showSecrets given own rs ops s = .ok (d, s')) :
    ∃ n, ∀ k, n ≤ k → deserializeDeployment J k ofType d =
      .ok (some m', rs.map keptState, ops.map fun o => (keptState o.1, o.2)) := by
  unfold serializeDeployment at hw
  rw [hm] at hw
  simp only [bind, Except.bind, pure, Except.pure, Option.map_some] at hw
  cases h1 : serializeResources J showSecrets m.enc rs s with
  | error x => rw [h1] at hw; cases hw
  | ok r1 =>
    rw [h1] at hw
    simp only at hw
    cases h2 : serializeOperations J showSecrets m.enc ops r1.2 with
    | error x => rw [h2] at hw; cases hw
    | ok r2 =>
      rw [h2] at hw
      simp only [Except.ok.injEq, Prod.mk.injEq] at hw
      obtain ⟨rfl, rfl⟩ := hw
      have henc' : showSecrets = true → ∀ p, ∃ x, m'.canEncrypt p = .ok x := by
        intro h p
        obtain ⟨c, s, e⟩ := henc h p
        exact ⟨c, by unfold Manager.canEncrypt; rw [e]; rfl⟩
      obtain ⟨hI1, c1, b1⟩ := resources_read hJ hrs ho henc' hI h1
      obtain ⟨n, hn⟩ := exists_bound b1 (operations_read hJ hops ho henc' hI1 h2)
      obtain ⟨cache, hc⟩ := bulk_ok c1
      refine ⟨n, fun k hk => ?_⟩
      unfold deserializeDeployment
      simp only [if_neg hty, hof, bind, Except.bind, hc, map_bulk hc, deserializeWith, (hn k hk).1, (hn k hk).2, pure, Except.pure]

/-- **C182.** Without a manager nothing secret can be written; what is written comes back. -/
theorem states_without_secrets_come_back_partial {σ : Type} {J : Codec} (hJ : J.Faithful)
    (ofType : String → String → Except Err (Manager σ)) (rs : List State) (ops : List (State × String))
    (hrs : ∀ r ∈ rs, StorableState r) (hops : ∀ o ∈ ops, StorableState o.1) (s : σ) (d : Deployment) (s' : σ)
    (hw : serializeDeployment J false none none rs ops s = .ok (d, s')) :
    ∃ n, ∀ k, n ≤ k → deserializeDeployment J k ofType d =
      .ok (none, rs.map keptState, ops.map fun o => (keptState o.1, o.2)) := by
  unfold serializeDeployment at hw
  simp only [Option.or_none, bind, Except.bind, pure, Except.pure, Option.map_none] at hw
  have ho : Opens J (fun _ : σ => True) panicEncrypter panicDecrypter := fun w s c s' _ h => by cases h
  cases h1 : serializeResources J false (panicEncrypter (σ := σ)) rs s with
  | error x => rw [h1] at hw; cases hw
  | ok r1 =>
    rw [h1] at hw
    simp only at hw
    cases h2 : serializeOperations J false (panicEncrypter (σ := σ)) ops r1.2 with
    | error x => rw [h2] at hw; cases hw
    | ok r2 =>
      rw [h2] at hw
      simp only [Except.ok.injEq, Prod.mk.injEq] at hw
      obtain ⟨rfl, rfl⟩ := hw
      obtain ⟨hI1, c1, b1⟩ := resources_read hJ hrs ho (enc' := panicDecrypter) (fun h => by cases h) trivial h1
      obtain ⟨n, hn⟩ := exists_bound b1 (operations_read hJ hops ho (enc' := panicDecrypter) (fun h => by cases h) hI1 h2)
      refine ⟨n, fun k hk => ?_⟩
      unfold deserializeDeployment
      simp only [bind, Except.bind, deserializeWith, (hn k hk).1, (hn k hk).2, pure, Except.pure]
      rfl

theorem panic_no_secrets {J : Codec} {σ : Type} {kvs : List (String × EV)} {s : σ} {ws s'}
    (h : serializeKvs J false panicEncrypter kvs s = .ok (ws, s')) : secretsOfProps kvs = [] := by
  rw [serializeKvs_eq] at h
  cases hs : secretsOfProps kvs with
  | nil => rfl
  | cons e es => rw [hs] at h; cases h

theorem panic_resource {J : Codec} {σ : Type} {r : State} {s : σ} {w s'}
    (h : serializeResource J false panicEncrypter r s = .ok (w, s')) :
    secretsOfProps r.inputs = [] ∧ secretsOfProps r.outputs = [] := by
  unfold serializeResource at h
  by_cases hu : r.urn = ""
  · rw [if_pos hu] at h; cases h
  · rw [if_neg hu] at h
    simp only [bind, Except.bind, pure, Except.pure] at h
    cases h1 : serializeKvs J false (panicEncrypter (σ := σ)) r.inputs s with
    | error x => rw [h1] at h; cases h
    | ok r1 =>
      rw [h1] at h
      simp only at h
      cases h2 : serializeKvs J false (panicEncrypter (σ := σ)) r.outputs r1.2 with
      | error x => rw [h2] at h; cases h
      | ok r2 => exact ⟨panic_no_secrets h1, panic_no_secrets h2⟩

/-- **C182.** Without a manager a state file holds no secrets: a stack that has some is not written, encrypted or not. -/
theorem secrets_need_a_manager {σ : Type} (J : Codec) (rs : List State) (ops : List (State × String)) (s : σ) (d : Deployment)
    (s' : σ) (h : serializeDeployment J false none none rs ops s = .ok (d, s')) :
    (∀ r ∈ rs, secretsOfProps r.inputs = [] ∧ secretsOfProps r.outputs = []) ∧
    ∀ o ∈ ops, secretsOfProps o.1.inputs = [] ∧ secretsOfProps o.1.outputs = [] := by
  have hrs : ∀ (rs : List State) (s : σ) ws s', serializeResources J false (panicEncrypter (σ := σ)) rs s = .ok (ws, s') →
      ∀ r ∈ rs, secretsOfProps r.inputs = [] ∧ secretsOfProps r.outputs = [] := by
    intro rs
    induction rs with
    | nil => intro s ws s' _ r hr; cases hr
    | cons x rs ih =>
      intro s ws s' h
      rw [serializeResources] at h
      cases h1 : serializeResource J false (panicEncrypter (σ := σ)) x s with
      | error e => rw [h1] at h; cases h
      | ok r1 =>
        rw [h1] at h
        simp only [bind, Except.bind] at h
        cases h2 : serializeResources J false (panicEncrypter (σ := σ)) rs r1.2 with
        | error e => rw [h2] at h; cases h
        | ok r2 =>
          intro r hr
          rcases List.mem_cons.1 hr with rfl | hr
          · exact panic_resource h1
          · exact ih _ _ _ h2 r hr
  have hops : ∀ (ops : List (State × String)) (s : σ) ws s', serializeOperations J false (panicEncrypter (σ := σ)) ops s = .ok (ws, s') →
      ∀ o ∈ ops, secretsOfProps o.1.inputs = [] ∧ secretsOfProps o.1.outputs = [] := by
    intro ops
    induction ops with
    | nil => intro s ws s' _ r hr; cases hr
    | cons x ops ih =>
      obtain ⟨x, t⟩ := x
      intro s ws s' h
      rw [serializeOperations] at h
      cases h1 : serializeResource J false (panicEncrypter (σ := σ)) x s with
      | error e => rw [h1] at h; cases h
      | ok r1 =>
        rw [h1] at h
        simp only [bind, Except.bind] at h
        cases h2 : serializeOperations J false (panicEncrypter (σ := σ)) ops r1.2 with
        | error e => rw [h2] at h; cases h
        | ok r2 =>
          intro r hr
          rcases List.mem_cons.1 hr with rfl | hr
          · exact panic_resource h1
          · exact ih _ _ _ h2 r hr
  unfold serializeDeployment at h
  simp only [Option.or_none, bind, Except.bind, pure, Except.pure] at h
  cases h1 : serializeResources J false (panicEncrypter (σ := σ)) rs s with
  | error x => rw [h1] at h; cases h
  | ok r1 =>
    rw [h1] at h
    simp only at h
    cases h2 : serializeOperations J false (panicEncrypter (σ := σ)) ops r1.2 with
    | error x => rw [h2] at h; cases h
    | ok r2 => exact ⟨hrs _ _ _ _ h1, hops _ _ _ _ h2⟩

theorem deserializeResource_sound {J : Codec} {n : Nat} {dec enc : Decrypter} {w : ResourceV3} {r : State}
    (h : deserializeResource J n dec enc w = .ok r) : Sound r ∧ LoadsProps J dec enc w.inputs r.inputs ∧
      LoadsProps J dec enc w.outputs r.outputs ∧ r = { w with inputs := r.inputs, outputs := r.outputs, customTimeouts := w.customTimeouts.getD ⟨0, 0, 0⟩ } := by
  unfold deserializeResource at h
  cases h1 : eachProp (deserialize J n dec enc) w.inputs with
  | error x => rw [h1] at h; cases h
  | ok inputs =>
    cases h2 : eachProp (deserialize J n dec enc) w.outputs with
    | error x => rw [h1, h2] at h; cases h
    | ok outputs =>
      rw [h1, h2] at h
      simp only [bind, Except.bind, pure, Except.pure] at h
      split at h
      · cases h
      · rename_i hu
        split at h
        · cases h
        · rename_i ht
          split at h
          · cases h
          · rename_i hi
            cases h
            refine ⟨⟨hu, ht, fun hc => ?_⟩, ⟨n, h1⟩, ⟨n, h2⟩, rfl⟩
            have hc : w.custom = false := hc
            simpa [hc] using hi

/-- **C183.** Whatever a state file says, a resource that is read from it has a URN and a type, and an id only if it is a custom
one: a file that says otherwise is refused. -/
theorem what_is_read_is_sound {σ : Type} (J : Codec) (n : Nat) (ofType : String → String → Except Err (Manager σ)) (d : Deployment)
    (m : Option (Manager σ)) (rs : List State) (ops : List (State × String))
    (h : deserializeDeployment J n ofType d = .ok (m, rs, ops)) :
    (∀ r ∈ rs, Sound r) ∧ ∀ o ∈ ops, Sound o.1 := by
  have hrs : ∀ {dec enc : Decrypter} {ws : List ResourceV3} {rs : List State}, deserializeResources J n dec enc ws = .ok rs →
      ∀ r ∈ rs, Sound r := by
    intro dec enc ws
    induction ws with
    | nil => intro rs h; cases h; intro r hr; cases hr
    | cons w ws ih =>
      intro rs h
      rw [deserializeResources] at h
      cases h1 : deserializeResource J n dec enc w with
      | error x => rw [h1] at h; cases h
      | ok r1 =>
        cases h2 : deserializeResources J n dec enc ws with
        | error x => rw [h1, h2] at h; cases h
        | ok r2 =>
          rw [h1, h2] at h
          cases h
          intro r hr
          rcases List.mem_cons.1 hr with rfl | hr
          · exact (deserializeResource_sound h1).1
          · exact ih h2 r hr
  have hops : ∀ {dec enc : Decrypter} {ws : List (ResourceV3 × String)} {ops : List (State × String)},
      deserializeOperations J n dec enc ws = .ok ops → ∀ o ∈ ops, Sound o.1 := by
    intro dec enc ws
    induction ws with
    | nil => intro ops h; cases h; intro r hr; cases hr
    | cons w ws ih =>
      obtain ⟨w, t⟩ := w
      intro ops h
      rw [deserializeOperations] at h
      cases h1 : deserializeResource J n dec enc w with
      | error x => rw [h1] at h; cases h
      | ok r1 =>
        cases h2 : deserializeOperations J n dec enc ws with
        | error x => rw [h1, h2] at h; cases h
        | ok r2 =>
          rw [h1, h2] at h
          cases h
          intro r hr
          rcases List.mem_cons.1 hr with rfl | hr
          · exact (deserializeResource_sound h1).1
          · exact ih h2 r hr
  have hwith : ∀ {dec enc : Decrypter}, deserializeWith J n dec enc d = .ok (rs, ops) →
      (∀ r ∈ rs, Sound r) ∧ ∀ o ∈ ops, Sound o.1 := by
    intro dec enc h
    unfold deserializeWith at h
    cases h1 : deserializeResources J n dec enc d.resources with
    | error x => rw [h1] at h; cases h
    | ok r1 =>
      cases h2 : deserializeOperations J n dec enc d.operations with
      | error x => rw [h1, h2] at h; cases h
      | ok r2 =>
        rw [h1, h2] at h
        cases h
        exact ⟨hrs h1, hops h2⟩
  have hnone : ∀ {x : Except Err (List State × List (State × String))},
      x.map (Prod.mk (none : Option (Manager σ))) = .ok (m, rs, ops) → x = .ok (rs, ops) := by
    intro x h
    cases x with
    | error e => cases h
    | ok y => cases h; rfl
  unfold deserializeDeployment at h
  split at h
  · rename_i t st _
    split at h
    · exact hwith (hnone h)
    · cases h1 : ofType t st with
      | error x => rw [h1] at h; cases h
      | ok m1 =>
        rw [h1] at h
        simp only [bind, Except.bind] at h
        cases h2 : bulkDecrypt m1.dec (collectResources d.resources) with
        | error x => rw [h2] at h; cases h
        | ok cache =>
          rw [h2] at h
          simp only at h
          cases h3 : deserializeWith J n (mapDecrypter cache m1.dec) m1.canEncrypt d with
          | error x => rw [h3] at h; cases h
          | ok y =>
            rw [h3] at h
            cases h
            exact hwith h3
  · exact hwith (hnone h)

theorem lookup_all {α : Type} (ks : List (String × W)) (a : α) (k : String) :
    (ks.map fun kw => (kw.1, a)).lookup k = if k ∈ ks.map (·.1) then some a else none := by
  induction ks with
  | nil => rfl
  | cons x ks ih =>
    by_cases hk : k = x.1
    · subst hk
      simp
    · have hb : (k == x.1) = false := by simpa using hk
      have hm : (k ∈ (x :: ks).map (·.1)) ↔ k ∈ ks.map (·.1) := by
        rw [List.map_cons, List.mem_cons]
        exact ⟨fun h => h.resolve_left hk, Or.inr⟩
      rw [List.map_cons, List.lookup, hb]
      simp only [ih, hm]

theorem upgraded {J : Codec} {n : Nat} {dec enc : Decrypter} {old : ResourceV2} {r : State}
    (h : deserializeResource J n dec enc (upToV3 old) = .ok r) : Upgraded J dec enc old r := by
  obtain ⟨_, h1, h2, h3⟩ := deserializeResource_sound h
  rw [h3]
  exact ⟨rfl, rfl, rfl, rfl, rfl, h1, h2, rfl, rfl, rfl, rfl, rfl, rfl, lookup_all _ _, rfl, rfl, rfl, rfl, rfl, rfl⟩

/-- Two lists that go together. -/
theorem pairs_resources {J : Codec} {n : Nat} {dec enc : Decrypter} {olds : List ResourceV2} {rs : List State}
    (h : deserializeResources J n dec enc (olds.map upToV3) = .ok rs) :
    rs.length = olds.length ∧ ∀ (i : Nat) old r, olds[i]? = some old → rs[i]? = some r → Upgraded J dec enc old r := by
  induction olds generalizing rs with
  | nil => cases h; exact ⟨rfl, fun i old r h => by cases h⟩
  | cons o olds ih =>
    rw [List.map_cons, deserializeResources] at h
    cases h1 : deserializeResource J n dec enc (upToV3 o) with
    | error x => rw [h1] at h; cases h
    | ok r1 =>
      cases h2 : deserializeResources J n dec enc (olds.map upToV3) with
      | error x => rw [h1, h2] at h; cases h
      | ok r2 =>
        rw [h1, h2] at h
        cases h
        obtain ⟨hl, hp⟩ := ih h2
        refine ⟨by simp [hl], fun i old r ho hr => ?_⟩
        cases i with
        | zero => simp at ho hr; subst ho hr; exact upgraded h1
        | succ i => exact hp i old r (by simpa using ho) (by simpa using hr)

theorem pairs_operations {J : Codec} {n : Nat} {dec enc : Decrypter} {olds : List (ResourceV2 × String)} {ops : List (State × String)}
    (h : deserializeOperations J n dec enc (olds.map fun o => (upToV3 o.1, o.2)) = .ok ops) :
    ops.length = olds.length ∧ ∀ (i : Nat) old r, olds[i]? = some old → ops[i]? = some r →
      Upgraded J dec enc old.1 r.1 ∧ r.2 = old.2 := by
  induction olds generalizing ops with
  | nil => cases h; exact ⟨rfl, fun i old r h => by cases h⟩
  | cons o olds ih =>
    rw [List.map_cons, deserializeOperations] at h
    cases h1 : deserializeResource J n dec enc (upToV3 o.1) with
    | error x => rw [h1] at h; cases h
    | ok r1 =>
      cases h2 : deserializeOperations J n dec enc (olds.map fun o => (upToV3 o.1, o.2)) with
      | error x => rw [h1, h2] at h; cases h
      | ok r2 =>
        rw [h1, h2] at h
        cases h
        obtain ⟨hl, hp⟩ := ih h2
        refine ⟨by simp [hl], fun i old r ho hr => ?_⟩
        cases i with
        | zero => simp at ho hr; subst ho hr; exact ⟨upgraded h1, rfl⟩
        | succ i => exact hp i old r (by simpa using ho) (by simpa using hr)

theorem upDeployment_read {σ : Type} {J : Codec} {n : Nat} {ofType : String → String → Except Err (Manager σ)}
    {d : List ResourceV2 × List (ResourceV2 × String)} {m rs ops}
    (h : deserializeDeployment J n ofType (upDeployment d) = .ok (m, rs, ops)) :
    m = none ∧ (rs.length = d.1.length ∧ ∀ (i : Nat) old r, d.1[i]? = some old → rs[i]? = some r →
        Upgraded J panicDecrypter panicDecrypter old r) ∧
      ops.length = d.2.length ∧ ∀ (i : Nat) old r, d.2[i]? = some old → ops[i]? = some r →
        Upgraded J panicDecrypter panicDecrypter old.1 r.1 ∧ r.2 = old.2 := by
  unfold deserializeDeployment upDeployment deserializeWith at h
  simp only at h
  cases h1 : deserializeResources J n panicDecrypter panicDecrypter (d.1.map upToV3) with
  | error x => rw [h1] at h; cases h
  | ok r1 =>
    cases h2 : deserializeOperations J n panicDecrypter panicDecrypter (d.2.map fun o => (upToV3 o.1, o.2)) with
    | error x => rw [h1, h2] at h; cases h
    | ok r2 =>
      rw [h1, h2] at h
      cases h
      exact ⟨rfl, pairs_resources h1, pairs_operations h2⟩

/-- **C183.** A file of the second version is read resource by resource and operation by operation, with every field; every
input is taken to depend on everything the resource depends on. -/
theorem old_files_are_read {σ : Type} (J : Codec) (R : Reader) (n : Nat) (ofType : String → String → Except Err (Manager σ))
    (body : String) (olds : List ResourceV2) (oldOps : List (ResourceV2 × String)) (hR : R.v2 body = some (olds, oldOps))
    (m : Option (Manager σ)) (rs : List State) (ops : List (State × String))
    (h : deserializeUntyped J R n ofType 2 body = .ok (m, rs, ops)) :
    m = none ∧ (rs.length = olds.length ∧ ∀ (i : Nat) old r, olds[i]? = some old → rs[i]? = some r →
        Upgraded J panicDecrypter panicDecrypter old r) ∧
      ops.length = oldOps.length ∧ ∀ (i : Nat) old r, oldOps[i]? = some old → ops[i]? = some r →
        Upgraded J panicDecrypter panicDecrypter old.1 r.1 ∧ r.2 = old.2 := by
  unfold deserializeUntyped at h
  simp only [show ¬ (2 : Int) > 3 by decide, show ¬ (2 : Int) < 1 by decide, if_false, show ¬ (2 : Int) = 1 by decide,
    if_true, hR, orJson, bind, Except.bind, pure, Except.pure] at h
  exact upDeployment_read h

/-- **C183.** A file of the first version: the same, and its resources are managed by Pulumi and have no provider. -/
theorem oldest_files_are_read {σ : Type} (J : Codec) (R : Reader) (n : Nat) (ofType : String → String → Except Err (Manager σ))
    (body : String) (olds : List ResourceV1) (hR : R.v1 body = some olds) (m : Option (Manager σ)) (rs : List State)
    (ops : List (State × String)) (h : deserializeUntyped J R n ofType 1 body = .ok (m, rs, ops)) :
    m = none ∧ ops = [] ∧ rs.length = olds.length ∧ ∀ (i : Nat) old r, olds[i]? = some old → rs[i]? = some r →
      ∃ mid, SameV1 old mid ∧ Upgraded J panicDecrypter panicDecrypter mid r := by
  unfold deserializeUntyped at h
  simp only [show ¬ (1 : Int) > 3 by decide, show ¬ (1 : Int) < 1 by decide, if_false,
    if_true, hR, orJson, bind, Except.bind, pure, Except.pure] at h
  obtain ⟨h1, ⟨h2, h3⟩, h4, _⟩ := upDeployment_read h
  refine ⟨h1, List.eq_nil_of_length_eq_zero h4, by simpa using h2, fun i old r ho hr => ?_⟩
  exact ⟨upToV2 old, ⟨rfl, rfl, rfl, rfl, rfl, rfl, rfl, rfl, rfl, rfl, rfl, rfl, rfl⟩, h3 i _ r (by rw [List.getElem?_map, ho]; rfl) hr⟩

/-- **C183.** A file of the third version is read as it is; of any other version it is refused, whatever is in it. -/
theorem only_known_versions_are_read {σ : Type} (J : Codec) (R : Reader) (n : Nat)
    (ofType : String → String → Except Err (Manager σ)) (version : Int) (body : String) :
    (version < 1 ∨ 3 < version → deserializeUntyped J R n ofType version body = .error .version) ∧
    (version = 3 → ∀ d, R.v3 body = some d → deserializeUntyped J R n ofType version body = deserializeDeployment J n ofType d) := by
  constructor
  · intro h
    unfold deserializeUntyped
    by_cases h3 : version > 3
    · simp only [if_pos h3]; rfl
    · have h1 : version < 1 := by omega
      simp only [if_neg h3, if_pos h1]; rfl
  · rintro rfl d hd
    unfold deserializeUntyped
    simp only [show ¬ (3 : Int) > 3 by decide, show ¬ (3 : Int) < 1 by decide, if_false, show ¬ (3 : Int) = 1 by decide,
      show ¬ (3 : Int) = 2 by decide, if_true, hd, orJson, bind, Except.bind, pure, Except.pure]

/-! ### Decrypting all at once -/

theorem serializeKvs_keys {J : Codec} {b : Bool} {σ : Type} {enc : Encrypter σ} {kvs : List (String × EV)} {s : σ} {ws s'}
    (h : serializeKvs J b enc kvs s = .ok (ws, s')) (hk : ∀ kv ∈ kvs, kv.1 ≠ reservedName) : ∀ kw ∈ ws, kw.1 ≠ reservedName := by
  induction kvs generalizing s ws s' with
  | nil => rw [serializeKvs] at h; cases h; intro kw hkw; cases hkw
  | cons kv kvs ih =>
    obtain ⟨k, e⟩ := kv
    rw [serializeKvs] at h
    cases h1 : serialize J b enc e s with
    | error x => rw [h1] at h; cases h
    | ok r =>
      rw [h1] at h
      simp only [bind, Except.bind] at h
      cases h2 : serializeKvs J b enc kvs r.2 with
      | error x => rw [h2] at h; cases h
      | ok r2 =>
        rw [h2] at h
        cases h
        intro kw hkw
        rcases List.mem_cons.1 hkw with rfl | hkw
        · exact hk (k, e) (List.mem_cons_self ..)
        · exact ih h2 (fun x hx => hk x (List.mem_cons_of_mem _ hx)) kw hkw

theorem props_ask {J : Codec} {b : Bool} {σ : Type} {writer : Encrypter σ} {kvs : List (String × EV)} (hv : Storable (.object kvs))
    {s s' : σ} {ws} (hw : serializeKvs J b writer kvs s = .ok (ws, s')) (n : Nat) {dec dec' : Decrypter} (enc : Decrypter)
    (h : ∀ c ∈ collect (.struct ws), dec c = dec' c) :
    eachProp (deserialize J n dec enc) ws = eachProp (deserialize J n dec' enc) ws := by
  have hf : Flat (.struct ws) := flat_serialize hv (s := s) (s' := s') (by rw [serialize, hw]; rfl)
  have hk : ∀ kw ∈ ws, kw.1 ≠ reservedName := by
    cases hv with
    | object hk _ => exact serializeKvs_keys hw hk
  rw [collect_no_sig hk] at h
  cases hf with
  | leaf _ h => exact absurd rfl (h _)
  | struct hf _ =>
    exact eachProp_congr fun kw hkw => deserialize_asks J (hf kw hkw) n _ _ enc fun c hc => h c (mem_collectKvs hkw hc)

theorem resource_asks {J : Codec} {b : Bool} {σ : Type} {writer : Encrypter σ} {r : State} (hr : StorableState r) {s s' : σ} {w}
    (hw : serializeResource J b writer r s = .ok (w, s')) (n : Nat) {dec dec' : Decrypter} (enc : Decrypter)
    (h : ∀ c ∈ collect (.struct w.inputs) ++ collect (.struct w.outputs), dec c = dec' c) :
    deserializeResource J n dec enc w = deserializeResource J n dec' enc w := by
  unfold serializeResource at hw
  rw [if_neg hr.urn] at hw
  simp only [bind, Except.bind, pure, Except.pure] at hw
  cases h1 : serializeKvs J b writer r.inputs s with
  | error x => rw [h1] at hw; cases hw
  | ok r1 =>
    rw [h1] at hw
    simp only at hw
    cases h2 : serializeKvs J b writer r.outputs r1.2 with
    | error x => rw [h2] at hw; cases hw
    | ok r2 =>
      rw [h2] at hw
      simp only [Except.ok.injEq, Prod.mk.injEq] at hw
      obtain ⟨rfl, rfl⟩ := hw
      unfold deserializeResource
      simp only [props_ask hr.inputs h1 n enc fun c hc => h c (List.mem_append_left _ hc),
        props_ask hr.outputs h2 n enc fun c hc => h c (List.mem_append_right _ hc)]

theorem resources_ask {J : Codec} {b : Bool} {σ : Type} {writer : Encrypter σ} {rs : List State} (hr : ∀ r ∈ rs, StorableState r)
    {s s' : σ} {ws} (hw : serializeResources J b writer rs s = .ok (ws, s')) (n : Nat) {dec dec' : Decrypter} (enc : Decrypter)
    (h : ∀ c ∈ collectResources ws, dec c = dec' c) :
    deserializeResources J n dec enc ws = deserializeResources J n dec' enc ws := by
  induction rs generalizing s ws with
  | nil => rw [serializeResources] at hw; cases hw; rfl
  | cons r rs ih =>
    rw [serializeResources] at hw
    cases h1 : serializeResource J b writer r s with
    | error x => rw [h1] at hw; cases hw
    | ok r1 =>
      rw [h1] at hw
      simp only [bind, Except.bind] at hw
      cases h2 : serializeResources J b writer rs r1.2 with
      | error x => rw [h2] at hw; cases hw
      | ok r2 =>
        rw [h2] at hw
        cases hw
        rw [collectResources] at h
        rw [deserializeResources, deserializeResources,
          resource_asks (hr r (List.mem_cons_self ..)) h1 n enc fun c hc => h c (List.mem_append_left _ hc),
          ih (fun x hx => hr x (List.mem_cons_of_mem _ hx)) h2 fun c hc => h c (List.mem_append_right _ hc)]

/-- **C180.** Of a state file that was written, all resources are read with what was decrypted at once: the decrypter is not asked
again. -/
theorem resources_are_decrypted_at_once {σ : Type} (J : Codec) (showSecrets : Bool) (given own : Option (Manager σ))
    (rs : List State) (ops : List (State × String)) (hrs : ∀ r ∈ rs, StorableState r) (s s' : σ) (d : Deployment)
    (hw : serializeDeployment J showSecrets given own rs ops s = .ok (d, s')) (n : Nat) (dec other enc : Decrypter)
    (cache : List (String × String)) (h : bulkDecrypt dec (collectResources d.resources) = .ok cache) :
    deserializeResources J n (mapDecrypter cache other) enc d.resources = deserializeResources J n dec enc d.resources := by
  unfold serializeDeployment at hw
  simp only [bind, Except.bind, pure, Except.pure] at hw
  have key : ∀ writer r1, serializeResources J showSecrets writer rs s = .ok r1 → d.resources = r1.1 →
      deserializeResources J n (mapDecrypter cache other) enc d.resources = deserializeResources J n dec enc d.resources := by
    intro writer r1 h1 hd
    rw [hd] at h ⊢
    refine resources_ask hrs h1 n enc fun c hc => ?_
    obtain ⟨k1, k2⟩ := bulk_lookup h c
    obtain ⟨p, hp⟩ := k2 hc
    unfold mapDecrypter
    rw [hp, k1 p hp]
  split at hw
  · cases hw
  · rename_i r1 h1
    split at hw
    · cases hw
    · refine key _ r1 h1 ?_
      cases hw
      rfl

/-! ## Examples -/

/-- A custom resource with the properties above. -/
def sampleState : State :=
  { type := "t", urn := "urn:a", custom := true, delete := false, id := "a-1", inputs := [("x", .secret (.str "pw")), ("y", sample)],
    outputs := [("z", .num 3)], parent := "urn:p", protect := true, external := false, dependencies := ["urn:b"],
    initErrors := ["e"], provider := "urn:prov::id", propertyDependencies := [("x", ["urn:b"])], pendingReplacement := false,
    additionalSecretOutputs := ["z"], aliases := ["urn:old"], customTimeouts := ⟨0, 5, 0⟩, importID := "", retainOnDelete := true }

theorem sampleState_storable : StorableState sampleState where
  urn := by decide
  type := by decide
  id h := by cases h
  inputs := by
    refine .object (by decide) fun kv hkv => ?_
    simp only [sampleState, List.mem_cons, List.not_mem_nil, or_false] at hkv
    rcases hkv with rfl | rfl
    · exact .secret (.str (by decide))
    · exact sample_storable
  outputs := by
    refine .object (by decide) fun kv hkv => ?_
    simp only [sampleState, List.mem_cons, List.not_mem_nil, or_false] at hkv
    subst hkv
    exact .num _

def sampleManager : Manager Nat := ⟨"counting", "", counting, 0, countingDec⟩

set_option maxRecDepth 100000 in
example : ∃ d s', serializeDeployment jsonCodec false none (some sampleManager) [sampleState] [(sampleState, "updating")] 0 = .ok (d, s') ∧
    ∃ n, ∀ k, n ≤ k → deserializeDeployment jsonCodec k (fun _ _ => .ok sampleManager) d =
      .ok (some sampleManager, [keptState sampleState], [(keptState sampleState, "updating")]) := by
  have hs : ∃ d s', serializeDeployment jsonCodec false none (some sampleManager) [sampleState] [(sampleState, "updating")] 0 = .ok (d, s') :=
    ⟨_, _, rfl⟩
  obtain ⟨d, s', h⟩ := hs
  refine ⟨d, s', h, ?_⟩
  exact states_come_back_partial json_faithful false (fun _ => True) none (some sampleManager) sampleManager sampleManager rfl _ (by decide) rfl
    (counting_opens _) (fun h => by cases h) _ _ (fun r hr => by simp at hr; subst hr; exact sampleState_storable)
    (fun r hr => by simp at hr; subst hr; exact sampleState_storable) 0 trivial d s' h

set_option maxRecDepth 100000 in
/-- It holds two secrets; those of the pending operation are not collected: reading it asks the decrypter again. -/
example : ∃ d s' cache, serializeDeployment jsonCodec false none (some sampleManager) [sampleState] [(sampleState, "updating")] 0 = .ok (d, s') ∧
    bulkDecrypt countingDec (collectResources d.resources) = .ok cache ∧ cache.length = 2 ∧
    deserializeOperations jsonCodec 30 (mapDecrypter cache panicDecrypter) panicDecrypter d.operations = .error .panic :=
  ⟨_, _, _, rfl, rfl, rfl, rfl⟩

/-- A resource of a file of the second version. -/
def sampleOld : ResourceV2 :=
  { urn := "urn:a", custom := true, delete := false, id := "a-1", type := "t", inputs := [("x", .str "v"), ("y", .num 2)],
    outputs := [("z", .bool true)], parent := "urn:p", protect := true, external := false, dependencies := ["urn:b", "urn:c"],
    initErrors := [], provider := "urn:prov::id" }

/-- A component of a file of the first version. -/
def sampleOldest : ResourceV1 :=
  { urn := "urn:a", custom := false, delete := false, id := "", type := "t", inputs := [("x", .str "v")], defaults := [],
    outputs := [], parent := "urn:p", protect := true, dependencies := ["urn:b"], initErrors := [] }

def sampleReader : Reader := ⟨fun _ => some [sampleOldest], fun _ => some ([sampleOld], [(sampleOld, "deleting")]), fun _ => none⟩

/-- It is read; what depends on what is filled in. -/
example : ∃ rs ops, deserializeUntyped (σ := Nat) jsonCodec sampleReader 5 (fun _ _ => .error .json) 2 "" = .ok (none, rs, ops) ∧
    rs.map (·.propertyDependencies) = [[("x", ["urn:b", "urn:c"]), ("y", ["urn:b", "urn:c"])]] ∧ ops.length = 1 :=
  ⟨_, _, rfl, rfl, rfl⟩

example : ∃ rs, deserializeUntyped (σ := Nat) jsonCodec sampleReader 5 (fun _ _ => .error .json) 1 "" = .ok (none, rs, []) ∧
    rs.map (·.provider) = [""] := ⟨_, rfl, rfl⟩

/-- A component that has an id is refused, and so is a secret in an old file, which has no manager. -/
example : deserializeUntyped (σ := Nat) jsonCodec ⟨fun _ => some [{ sampleOldest with id := "i" }], fun _ => none, fun _ => none⟩ 5
    (fun _ _ => .error .json) 1 "" = .error .malformed := rfl

example : deserializeUntyped (σ := Nat) jsonCodec ⟨fun _ => some [{ sampleOldest with inputs := [("x", secretW false "" "c")] }],
    fun _ => none, fun _ => none⟩ 5 (fun _ _ => .error .json) 1 "" = .error .panic := rfl

/-- A state without secrets, written without a manager, meets what the theorem asks; one with secrets is not written. -/
example : ∃ d s', serializeDeployment jsonCodec false none none [{ sampleState with inputs := [("y", .num 2)] }] [] (0 : Nat) = .ok (d, s') :=
  ⟨_, _, rfl⟩

example : serializeDeployment jsonCodec false none none [sampleState] [] (0 : Nat) = .error .panic := rfl

end Pulumi.Checkpoint
