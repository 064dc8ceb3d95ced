import Verif.Providers.DefaultsLemmas
import Verif.Rename.UrnTheorems
/-!
# Default providers (C201)
-/
namespace Pulumi.Providers
open Pulumi.Plugins (Version Ident)
open Pulumi.Urn (Text splitChar sep)
open Pulumi.Rename (newURN validateURN nameOf refString parseReference)

/-! ## Names and keys -/

theorem versionName_chars {v : Version} (hv : Parsed v) : (versionName v).all nameChar = true := by
  rw [List.all_eq_true]
  intro c hc
  obtain ⟨t, ht, h⟩ := List.mem_flatMap.mp hc
  rcases List.mem_cons.mp h with rfl | h
  · decide
  · have hd : ∀ n, t = digits n → nameChar c = true := fun n e => ident_name (digit_ident (digits_digit (n := n) (e ▸ h)))
    simp only [List.mem_append, List.mem_cons, List.not_mem_nil, or_false, List.mem_map] at ht
    rcases ht with ((ht | ht | ht) | ⟨i, hi, rfl⟩) | ⟨s, hs, rfl⟩
    · exact hd _ ht
    · exact hd _ ht
    · exact hd _ ht
    · exact ident_name (List.all_eq_true.mp (ident_chars hv hi) c h)
    · exact ident_name (List.all_eq_true.mp (hv.build s hs).2 c h)

/-- **C201** The name of a default provider is one that resources may have, whatever the version and the URL: the assertion in `Name` does not fail. -/
theorem default_name_legal (r : Request) (hv : ∀ v, r.version = some v → Parsed v) : isQName r.name = true := by
  obtain ⟨v, p, u⟩ := r
  have hb : ∀ x : Text, x.all nameChar = true → isQName ("default".toList ++ x ++ if u = [] then [] else '_' :: intoQName u) = true := by
    intro x hx
    have hd : ("default".toList ++ x).all nameChar = true := by rw [List.all_append, hx]; decide
    by_cases hu : u = []
    · rw [if_pos hu, List.append_nil]
      exact isQName_name (by simp) hd
    · rw [if_neg hu, List.append_cons]
      exact isQName_prefix (by rw [List.all_append, hd]; decide) (intoQName_isQName _)
  cases v with
  | none => exact hb [] rfl
  | some v => exact hb _ (versionName_chars (hv v rfl))

/-- The text of a URL begins with a scheme. -/
def HasScheme (u : Text) : Prop := ∃ s rest, u = s ++ ':' :: rest ∧ '-' ∉ s ∧ ':' ∉ s

/-- Requests as programs make them: packages have no dots and no colons, and URLs begin with schemes. -/
structure Usual (r : Request) : Prop where
  dot : '.' ∉ r.pkg
  colon : ':' ∉ r.pkg
  version : ∀ v, r.version = some v → Parsed v
  url : r.url = [] ∨ HasScheme r.url

/-- The part of the key for the package and version -/
def keyHead (r : Request) : Text := r.pkg ++ (match r.version with | none => [] | some v => '-' :: versionText v)

theorem keyHead_inj {a b : Request} (ha : Usual a) (hb : Usual b) (h : keyHead a = keyHead b) : a.pkg = b.pkg ∧ a.version = b.version := by
  unfold keyHead at h
  have hdot : ∀ v : Version, '.' ∈ '-' :: versionText v := by
    intro v; rw [versionText_eq]; simp
  cases hv : a.version with
  | none =>
    rw [hv] at h
    cases hw : b.version with
    | none => rw [hw] at h; simp only [List.append_nil] at h; exact ⟨h, rfl⟩
    | some w =>
      rw [hw] at h; simp only [List.append_nil] at h
      exact absurd (by rw [h]; exact List.mem_append_right _ (hdot w)) ha.dot
  | some v =>
    rw [hv] at h
    cases hw : b.version with
    | none =>
      rw [hw] at h; simp only [List.append_nil] at h
      exact absurd (by rw [← h]; exact List.mem_append_right _ (hdot v)) hb.dot
    | some w =>
      rw [hw] at h; simp only at h
      have h0 := h
      replace h : (a.pkg ++ '-' :: digits v.major) ++ '.' :: (digits v.minor ++ '.' :: (digits v.patch ++ (preText v ++ buildText v))) =
          (b.pkg ++ '-' :: digits w.major) ++ '.' :: (digits w.minor ++ '.' :: (digits w.patch ++ (preText w ++ buildText w))) := by
        simpa only [versionText_eq, List.append_assoc, List.cons_append] using h
      have hno : ∀ (p : Text) (n : Nat), '.' ∉ p → '.' ∉ p ++ '-' :: digits n := by
        intro p n hp hm
        rcases List.mem_append.mp hm with hm | hm
        · exact hp hm
        · rcases List.mem_cons.mp hm with hm | hm
          · exact absurd hm (by decide)
          · exact digits_not (by decide) hm
      obtain ⟨e, -⟩ := cut (hno _ _ ha.dot) (hno _ _ hb.dot) h
      obtain ⟨e, -⟩ := cutLast (digits_not (by decide)) (digits_not (by decide)) e
      rw [e] at h0
      have h1 := List.append_cancel_left h0
      rw [List.cons.injEq] at h1
      exact ⟨e, by rw [versionText_inj (ha.version v hv) (hb.version w hw) h1.2]⟩

theorem keyHead_colon {a : Request} (ha : Usual a) : ':' ∉ keyHead a := by
  unfold keyHead
  intro h
  rcases List.mem_append.mp h with h | h
  · exact ha.colon h
  · cases hv : a.version with
    | none => rw [hv] at h; cases h
    | some v =>
      rw [hv] at h
      rcases List.mem_cons.mp h with h | h
      · exact absurd h (by decide)
      · exact versionText_colon (ha.version v hv) h

/-- **C201** Requests for different packages, versions or URLs have different keys. Missing: URLs without a scheme and packages with dots, see below. -/
theorem keys_separate_partial {a b : Request} (ha : Usual a) (hb : Usual b) (h : a.key = b.key) : a = b := by
  have hk : ∀ r : Request, r.key = keyHead r ++ if r.url = [] then [] else '-' :: r.url := fun r => rfl
  rw [hk, hk] at h
  have fin : keyHead a = keyHead b → a.url = b.url → a = b := by
    intro h1 h2
    obtain ⟨e1, e2⟩ := keyHead_inj ha hb h1
    cases a; cases b
    simp only at e1 e2 h2
    rw [e1, e2, h2]
  by_cases hu : a.url = []
  · by_cases hw : b.url = []
    · rw [if_pos hu, if_pos hw, List.append_nil, List.append_nil] at h
      exact fin h (hu.trans hw.symm)
    · rw [if_pos hu, if_neg hw, List.append_nil] at h
      rcases hb.url with e | ⟨s, rest, e, -⟩
      · exact absurd e hw
      · exact absurd (by rw [h, e]; simp) (keyHead_colon ha)
  · by_cases hw : b.url = []
    · rw [if_neg hu, if_pos hw, List.append_nil] at h
      rcases ha.url with e | ⟨s, rest, e, -⟩
      · exact absurd e hu
      · exact absurd (by rw [← h, e]; simp) (keyHead_colon hb)
    · rw [if_neg hu, if_neg hw] at h
      rcases ha.url with e | ⟨s, rest, e, hs, hs'⟩
      · exact absurd e hu
      rcases hb.url with e' | ⟨t, rest', e', ht, ht'⟩
      · exact absurd e' hw
      have h0 := h
      rw [e, e', ← List.cons_append, ← List.cons_append, ← List.append_assoc, ← List.append_assoc] at h
      have hno : ∀ (r : Request) (x : Text), Usual r → ':' ∉ x → ':' ∉ keyHead r ++ '-' :: x := by
        intro r x hr hx hm
        rcases List.mem_append.mp hm with hm | hm
        · exact keyHead_colon hr hm
        · rcases List.mem_cons.mp hm with hm | hm
          · exact absurd hm (by decide)
          · exact hx hm
      obtain ⟨h1, -⟩ := cut (hno a s ha hs') (hno b t hb ht') h
      obtain ⟨h2, -⟩ := cutLast hs ht h1
      rw [h2] at h0
      have h3 := List.append_cancel_left h0
      rw [List.cons.injEq] at h3
      exact fin h2 h3.2

/-- **C201** Default providers of versions without build identifiers, and without URLs, have different names for different versions. -/
theorem names_separate_partial {a b : Request} (ha : ∀ v, a.version = some v → Parsed v ∧ v.build = []) (hb : ∀ v, b.version = some v → Parsed v ∧ v.build = [])
    (hu : a.url = []) (hw : b.url = []) (h : a.name = b.name) : a.version = b.version := by
  unfold Request.name at h
  rw [if_pos hu, if_pos hw, List.append_nil, List.append_nil] at h
  have h1 := List.append_cancel_left h
  cases hv : a.version with
  | none =>
    cases hv' : b.version with
    | none => rfl
    | some w => rw [hv, hv'] at h1; cases h1
  | some v =>
    cases hv' : b.version with
    | none => rw [hv, hv'] at h1; cases h1
    | some w =>
      rw [hv, hv'] at h1
      simp only [versionName] at h1
      obtain ⟨pv, bv⟩ := ha v hv
      obtain ⟨pw, bw⟩ := hb w hv'
      have hno : ∀ u : Version, Parsed u → u.build = [] → ∀ t ∈ [digits u.major, digits u.minor, digits u.patch] ++ u.pre.map identText ++ u.build.map String.toList, '_' ∉ t := by
        intro u hu hbu t ht
        rw [hbu] at ht
        simp only [List.map_nil, List.append_nil, List.mem_append, List.mem_cons, List.not_mem_nil, or_false, List.mem_map] at ht
        rcases ht with (ht | ht | ht) | ⟨i, hi, rfl⟩
        · rw [ht]; exact digits_not (by decide)
        · rw [ht]; exact digits_not (by decide)
        · rw [ht]; exact digits_not (by decide)
        · exact ident_not (by decide) (ident_chars hu hi)
      have h2 := under_inj (hno v pv bv) (hno w pw bw) h1
      rw [bv, bw] at h2
      simp only [List.map_nil, List.append_nil, List.cons_append, List.nil_append, List.cons.injEq] at h2
      have q := map_inj_on (fun i hi j hj e => ident_inj pv pw hi hj e) h2.2.2.2
      have q1 := digits_inj h2.1
      have q2 := digits_inj h2.2.1
      have q3 := digits_inj h2.2.2.1
      cases v; cases w
      simp only at q q1 q2 q3 bv bw
      rw [q, q1, q2, q3, bv, bw]

/-! ## Denied packages -/

theorem denyList_true (pkg : Text) (l : List (Option Text)) : denyList pkg l = .ok true ↔
    ∃ a x b, l = a ++ some x :: b ∧ (trimSpace x = ['*'] ∨ trimSpace x = pkg) ∧ ∀ y ∈ a, y ≠ none := by
  induction l with
  | nil =>
    refine ⟨fun h => (by cases h), ?_⟩
    rintro ⟨a, x, b, h, -⟩
    cases a <;> cases h
  | cons o l ih =>
    cases o with
    | none =>
      refine ⟨fun h => (by cases h), ?_⟩
      rintro ⟨a, x, b, h, -, hn⟩
      cases a with
      | nil => cases h
      | cons y a =>
        rw [List.cons_append, List.cons.injEq] at h
        exact absurd h.1.symm (hn y List.mem_cons_self)
    | some s =>
      unfold denyList
      by_cases hs : trimSpace s = ['*'] ∨ trimSpace s = pkg
      · rw [if_pos hs]
        exact ⟨fun _ => ⟨[], s, l, rfl, hs, fun y hy => (by cases hy)⟩, fun _ => rfl⟩
      · rw [if_neg hs, ih]
        constructor
        · rintro ⟨a, x, b, rfl, hx, hn⟩
          refine ⟨some s :: a, x, b, rfl, hx, fun y hy => ?_⟩
          rcases List.mem_cons.mp hy with rfl | hy
          · simp
          · exact hn y hy
        · rintro ⟨a, x, b, h, hx, hn⟩
          cases a with
          | nil =>
            rw [List.nil_append, List.cons.injEq] at h
            cases h.1
            exact absurd hx hs
          | cons y a =>
            rw [List.cons_append, List.cons.injEq] at h
            exact ⟨a, x, b, h.2, hx, fun z hz => hn z (List.mem_cons_of_mem _ hz)⟩

/-- **C201** A request is denied if and only if the user has turned default providers off for its package. -/
theorem denied_iff_off (s : Setting) (pkg : Text) : shouldDeny s pkg = .ok true ↔ Off s pkg := by
  unfold Off
  cases s with
  | list l =>
    unfold shouldDeny
    simp only [denyList_true, Setting.list.injEq]
  | _ =>
    refine ⟨fun h => (by cases h), ?_⟩
    rintro ⟨a, x, b, h, -⟩
    cases h

theorem denyList_false (pkg : Text) (l : List (Option Text)) : denyList pkg l = .ok false ↔ ∀ o ∈ l, ∃ x, o = some x ∧ trimSpace x ≠ ['*'] ∧ trimSpace x ≠ pkg := by
  induction l with
  | nil => simp [denyList]
  | cons o l ih =>
    cases o with
    | none => simp [denyList]
    | some s =>
      unfold denyList
      by_cases hs : trimSpace s = ['*'] ∨ trimSpace s = pkg
      · rw [if_pos hs]
        simp only [Except.ok.injEq, Bool.true_eq_false, List.mem_cons, forall_eq_or_imp, Option.some.injEq, exists_eq_left', false_iff, not_and]
        exact fun h1 => absurd hs (by simp [h1])
      · rw [if_neg hs, ih]
        simp only [not_or] at hs
        simp [hs]

/-- **C201** A request is let through if and only if the setting can be read and is not there, is empty, or is a list of texts none of which is a star or the package; in all other
cases in which it is not denied the request fails. -/
theorem let_through_iff (s : Setting) (pkg : Text) : shouldDeny s pkg = .ok false ↔
    s = .unset ∨ s = .empty ∨ ∃ l, s = .list l ∧ ∀ o ∈ l, ∃ x, o = some x ∧ trimSpace x ≠ ['*'] ∧ trimSpace x ≠ pkg := by
  cases s with
  | list l => simp [shouldDeny, denyList_false]
  | _ => simp [shouldDeny]

theorem denyRef_valid {pkg : Text} (h : ¬ Urn.HasSep pkg) : validateURN (denyRef pkg).1 = some true ∧ nameOf (denyRef pkg).1 = some pkg := by
  have h1 : Urn.CleanField "denied".toList ∧ Urn.CleanField "denied".toList ∧ Urn.CleanField (Rename.qualified "denied".toList "pulumi:providers:denied".toList) ∧
      ¬ Urn.HasSep "x".toList :=
    (Rename.urn_fields_read_back "denied".toList "denied".toList "denied".toList "pulumi:providers:denied".toList "x".toList).1 (by decide +kernel)
  have h2 := (Rename.urn_fields_read_back "denied".toList "denied".toList "denied".toList "pulumi:providers:denied".toList pkg).2 ⟨h1.1, h1.2.1, h1.2.2.1, h⟩
  refine ⟨?_, h2.2.2.2⟩
  have ht := (Rename.urn_type_read_back h1.1 h1.2.1 h1.2.2.1 h).2 (by decide)
  have hval : Rename.isValid (denyRef pkg).1 = true := by
    unfold denyRef Rename.isValid
    have hp : (Urn.urnPrefix).isPrefixOf (newURN "denied".toList "denied".toList "denied".toList "pulumi:providers:denied".toList pkg) = true := by
      rw [List.isPrefixOf_iff_prefix]
      unfold newURN
      simp only [List.append_assoc]
      exact List.prefix_append _ _
    rw [hp, Bool.true_and, decide_eq_true_eq]
    have hc : Urn.CleanField ("urn:pulumi:denied".toList) :=
      ((Rename.urn_fields_read_back "urn:pulumi:denied".toList "denied".toList "denied".toList "pulumi:providers:denied".toList "x".toList).1 (by decide +kernel)).1
    have e : newURN "denied".toList "denied".toList "denied".toList "pulumi:providers:denied".toList pkg =
        "urn:pulumi:denied".toList ++ sep ++ ("denied".toList ++ sep ++ (Rename.qualified "denied".toList "pulumi:providers:denied".toList ++ sep ++ pkg)) := by
      unfold newURN
      rw [show "urn:pulumi:denied".toList = Urn.urnPrefix ++ "denied".toList by decide +kernel]
      simp [Rename.qualified, List.append_assoc]
    rw [e, Urn.splitSep_append hc, Urn.splitSep_append h1.2.1, Urn.splitSep_append h1.2.2.1, Urn.splitSep_noSep h]
    rfl
  unfold validateURN
  rw [hval]
  simp only [Bool.not_true, Bool.false_eq_true, if_false]
  rw [show Rename.typeOf (denyRef pkg).1 = some "pulumi:providers:denied".toList from ht]
  decide +kernel

theorem noColon_noSep {t : Text} (h : ':' ∉ t) : ¬ Urn.HasSep t := by
  rintro ⟨a, b, rfl⟩
  exact h (by simp)

/-! ## Serving requests -/

theorem handle_keeps (S : Sources) {m : List (Text × (Text × Text))} {k : Text} {ref : Text × Text} (r : Request) (reply : Reply) (h : m.lookup k = some ref) :
    (S.handle m r reply).1.lookup k = some ref := by
  unfold Sources.handle
  split
  · exact h
  · exact h
  · split
    · exact h
    · rename_i hl
      split
      · exact h
      · split
        · exact h
        · split
          · exact h
          · exact h
          · simp only
            split
            · simp only
              rw [List.lookup_cons]
              have : (k == r.key) = false := by
                rw [beq_eq_false_iff_ne]
                rintro rfl
                rw [hl] at h; cases h
              rw [this]; exact h
            · exact h

theorem handle_request (S : Sources) (m : List (Text × (Text × Text))) (r : Request) (reply : Reply) : (S.handle m r reply).2.request = r := by
  unfold Sources.handle
  repeat' split
  all_goals first | rfl | (simp only; split <;> rfl)

/-- What a request is answered with when it is not denied -/
theorem handle_known (S : Sources) {m : List (Text × (Text × Text))} {r : Request} {ref : Text × Text} (reply : Reply) (hd : shouldDeny S.setting r.pkg = .ok false)
    (h : m.lookup r.key = some ref) : (S.handle m r reply).2 = ⟨r, .ok ref, none⟩ := by
  unfold Sources.handle
  rw [hd]
  simp only [h]

theorem handle_denied (S : Sources) (m : List (Text × (Text × Text))) {r : Request} (reply : Reply) (hd : shouldDeny S.setting r.pkg = .ok true) :
    (S.handle m r reply).2 = ⟨r, if validateURN (denyRef r.pkg).1 = some true then .ok (denyRef r.pkg) else .error .panic, none⟩ := by
  unfold Sources.handle
  rw [hd]

theorem handle_ok (S : Sources) {m : List (Text × (Text × Text))} {r : Request} {reply : Reply} {ref : Text × Text} (h : (S.handle m r reply).2.answer = .ok ref) :
    shouldDeny S.setting r.pkg = .ok true ∧ ref = denyRef r.pkg ∨
      shouldDeny S.setting r.pkg = .ok false ∧ (S.handle m r reply).1.lookup r.key = some ref ∧
        (m.lookup r.key = some ref ∨ ∃ urn id, reply = .state urn id ∧ ref = (urn, if id = [] then unknownID else id)) := by
  cases hd : shouldDeny S.setting r.pkg with
  | error e => unfold Sources.handle at h; rw [hd] at h; cases h
  | ok b =>
    cases b with
    | true =>
      rw [handle_denied S m reply hd] at h
      simp only at h
      split at h
      · cases h; exact .inl ⟨rfl, rfl⟩
      · cases h
    | false =>
      refine .inr ⟨rfl, ?_⟩
      cases hl : m.lookup r.key with
      | some ref' =>
        rw [handle_known S reply hd hl] at h
        cases h
        exact ⟨handle_keeps S r reply hl, .inl rfl⟩
      | none =>
        unfold Sources.handle at h ⊢
        rw [hd] at h ⊢
        simp only [hl] at h ⊢
        cases hr : S.registration r with
        | none => rw [hr] at h; cases h
        | some e =>
          rw [hr] at h
          simp only at h ⊢
          by_cases hq : isQName e.name = false
          · rw [if_pos hq] at h; cases h
          · rw [if_neg hq] at h ⊢
            cases reply with
            | notTaken => cases h
            | notAnswered => cases h
            | state urn id =>
              simp only at h ⊢
              by_cases hv : validateURN urn = some true
              · rw [if_pos hv] at h ⊢
                cases h
                exact ⟨by simp, .inr ⟨urn, id, rfl, rfl⟩⟩
              · rw [if_neg hv] at h; cases h

theorem serve_known (S : Sources) {m : List (Text × (Text × Text))} {k : Text} {ref : Text × Text} (h : m.lookup k = some ref) {l : List (Request × Reply)} {b : Served}
    (hb : b ∈ S.serve m l) (hk : b.request.key = k) (hd : shouldDeny S.setting b.request.pkg = .ok false) : b.answer = .ok ref ∧ b.registered = none := by
  induction l generalizing m with
  | nil => cases hb
  | cons x l ih =>
    unfold Sources.serve at hb
    rcases List.mem_cons.mp hb with rfl | hb
    · rw [handle_request] at hk hd
      rw [handle_known S x.2 hd (hk ▸ h)]
      exact ⟨rfl, rfl⟩
    · exact ih (handle_keeps S x.1 x.2 h) hb

theorem serve_at (S : Sources) {m : List (Text × (Text × Text))} {l : List (Request × Reply)} {b : Served} (hb : b ∈ S.serve m l) :
    ∃ m' x, x ∈ l ∧ b = (S.handle m' x.1 x.2).2 := by
  induction l generalizing m with
  | nil => cases hb
  | cons x l ih =>
    unfold Sources.serve at hb
    rcases List.mem_cons.mp hb with rfl | hb
    · exact ⟨m, x, List.mem_cons_self, rfl⟩
    · obtain ⟨m', y, hy, e⟩ := ih hb
      exact ⟨m', y, List.mem_cons_of_mem _ hy, e⟩

/-- **C201** Whatever the requests and what the engine does: once a request was answered, all later ones for the same package with the same key get the same
reference, and no further provider is registered for them. -/
theorem same_default_provider (S : Sources) (m : List (Text × (Text × Text))) (l : List (Request × Reply)) :
    (S.serve m l).Pairwise fun a b => a.request.pkg = b.request.pkg → a.request.key = b.request.key → ∀ ref, a.answer = .ok ref → b.answer = .ok ref ∧ b.registered = none := by
  induction l generalizing m with
  | nil => exact .nil
  | cons x l ih =>
    unfold Sources.serve
    rw [List.pairwise_cons]
    refine ⟨fun b hb hp hk ref hr => ?_, ih _⟩
    rw [handle_request] at hp hk
    rcases handle_ok S hr with ⟨hd, e⟩ | ⟨hd, hl, -⟩
    · obtain ⟨m', y, -, e'⟩ := serve_at S hb
      have hy : b.request = y.1 := by rw [e']; exact handle_request ..
      have ha := handle_denied S m x.2 hd
      rw [ha] at hr
      simp only at hr
      rw [hp, hy] at hd hr
      rw [e', handle_denied S m' y.2 hd]
      exact ⟨hr, rfl⟩
    · exact serve_known S hl hb hk.symm (hp ▸ hd)

/-- **C201** At most one provider is registered for a key that is answered, and what is registered has the package and the name of the request, and the version and
URL of the request, or else of the default plugin, or else of the configuration. Denied packages are never registered. -/
theorem registered_as_requested (S : Sources) (m : List (Text × (Text × Text))) (l : List (Request × Reply)) {b : Served} (hb : b ∈ S.serve m l) {e : Registration}
    (he : b.registered = some e) : ¬ Off S.setting b.request.pkg ∧ e.pkg = b.request.pkg ∧ e.name = b.request.name ∧ isQName e.name = true ∧
      ∃ i, S.config b.request.pkg = some i ∧ e.inputs.rest = i.rest ∧
        e.inputs.version = ((b.request.version.or (S.version b.request.pkg)).map versionText).or i.version ∧
        e.inputs.url = (if b.request.url ≠ [] then some b.request.url else if S.url b.request.pkg ≠ [] then some (S.url b.request.pkg) else i.url) := by
  obtain ⟨m', x, -, rfl⟩ := serve_at S hb
  rw [handle_request]
  cases hd : shouldDeny S.setting x.1.pkg with
  | error e' => unfold Sources.handle at he; rw [hd] at he; cases he
  | ok d =>
    cases d with
    | true => rw [handle_denied S m' x.2 hd] at he; cases he
    | false =>
      have hoff : ¬ Off S.setting x.1.pkg := by rw [← denied_iff_off, hd]; simp
      cases hl : m'.lookup x.1.key with
      | some ref => rw [handle_known S x.2 hd hl] at he; cases he
      | none =>
        unfold Sources.handle at he
        rw [hd] at he
        simp only [hl] at he
        cases hr : S.registration x.1 with
        | none => rw [hr] at he; cases he
        | some e' =>
          rw [hr] at he
          simp only at he
          by_cases hq : isQName e'.name = false
          · rw [if_pos hq] at he; cases he
          · rw [if_neg hq] at he
            have e1 : e' = e := by
              cases hx : x.2 with
              | notTaken => rw [hx] at he; cases he
              | notAnswered => rw [hx] at he; cases he; rfl
              | state urn id =>
                rw [hx] at he
                simp only at he
                split at he <;> (cases he; rfl)
            subst e1
            refine ⟨hoff, ?_⟩
            unfold Sources.registration at hr
            cases hc : S.config x.1.pkg with
            | none => rw [hc] at hr; cases hr
            | some i =>
              rw [hc] at hr
              simp only [Option.map_some, Option.some.injEq] at hr
              subst hr
              refine ⟨rfl, rfl, by simpa using hq, i, rfl, ?_, ?_, ?_⟩
              · cases x.1.version <;> cases S.version x.1.pkg <;> simp only <;> (repeat' split) <;> rfl
              · cases x.1.version <;> cases S.version x.1.pkg <;> simp only <;> (repeat' split) <;> rfl
              · cases x.1.version <;> cases S.version x.1.pkg <;> simp only <;> (repeat' split) <;> rfl

/-- **C201** A request for a package that is turned off is answered by a reference that says so and names the package, and the reference can be sent as text. -/
theorem denied_reference (S : Sources) (m : List (Text × (Text × Text))) (l : List (Request × Reply)) {b : Served} (hb : b ∈ S.serve m l)
    (hc : ':' ∉ b.request.pkg) (ho : Off S.setting b.request.pkg) :
    ∃ urn, b.answer = .ok (urn, "denydefaultprovider".toList) ∧ nameOf urn = some b.request.pkg ∧ b.registered = none ∧
      parseReference (refString urn "denydefaultprovider".toList) = some (some (urn, "denydefaultprovider".toList)) := by
  obtain ⟨m', x, -, rfl⟩ := serve_at S hb
  rw [handle_request] at hc ho ⊢
  have hd := (denied_iff_off _ _).mpr ho
  rw [handle_denied S m' x.2 hd]
  obtain ⟨h1, h2⟩ := denyRef_valid (noColon_noSep hc)
  refine ⟨(denyRef x.1.pkg).1, if_pos h1, h2, rfl, ?_⟩
  rw [Rename.reference_round_trip _ _ h1]
  exact (Rename.reference_round_trip (denyRef "x".toList).1 denyID (by decide +kernel)).mp (by decide +kernel)

/-- **C201** A request that is answered and whose package is not turned off gets what the engine has answered to a request that is the same. Missing: requests that are
not usual, see below. -/
theorem own_default_provider_partial (S : Sources) (l : List (Request × Reply)) (hu : ∀ x ∈ l, Usual x.1) {b : Served} (hb : b ∈ S.serve [] l) {ref : Text × Text}
    (hr : b.answer = .ok ref) (ho : ¬ Off S.setting b.request.pkg) :
    ∃ urn id, (b.request, Reply.state urn id) ∈ l ∧ ref = (urn, if id = [] then "04da6b54-80e4-46f7-96ec-b56ff0331ba9".toList else id) := by
  have gen : ∀ (l0 : List (Request × Reply)) (m : List (Text × (Text × Text))), (∀ x ∈ l0, x ∈ l) →
      (∀ k ref, m.lookup k = some ref → ∃ r urn id, r.key = k ∧ (r, Reply.state urn id) ∈ l ∧ ref = (urn, if id = [] then unknownID else id)) →
      b ∈ S.serve m l0 → ∃ urn id, (b.request, Reply.state urn id) ∈ l ∧ ref = (urn, if id = [] then unknownID else id) := by
    intro l0
    induction l0 with
    | nil => intro m _ _ h; cases h
    | cons x l0 ih =>
      intro m hl hm hb
      unfold Sources.serve at hb
      rcases List.mem_cons.mp hb with rfl | hb
      · rw [handle_request] at ho ⊢
        rcases handle_ok S hr with ⟨hd, -⟩ | ⟨-, -, hlk | ⟨urn, id, hx, e⟩⟩
        · exact absurd ((denied_iff_off _ _).mp hd) ho
        · obtain ⟨r, urn, id, hk, hmem, e⟩ := hm _ _ hlk
          have : r = x.1 := keys_separate_partial (hu _ hmem) (hu _ (hl x List.mem_cons_self)) hk
          exact ⟨urn, id, this ▸ hmem, e⟩
        · refine ⟨urn, id, ?_, e⟩
          rw [← hx]
          exact hl x List.mem_cons_self
      · refine ih _ (fun y hy => hl y (List.mem_cons_of_mem _ hy)) (fun k ref' hk => ?_) hb
        by_cases hold : m.lookup k = some ref'
        · exact hm k ref' hold
        · unfold Sources.handle at hk
          revert hk
          split
          · exact fun hk => absurd hk hold
          · exact fun hk => absurd hk hold
          · split
            · exact fun hk => absurd hk hold
            · split
              · exact fun hk => absurd hk hold
              · split
                · exact fun hk => absurd hk hold
                · split
                  · exact fun hk => absurd hk hold
                  · exact fun hk => absurd hk hold
                  · rename_i urn id hx
                    simp only
                    split
                    · simp only
                      rw [List.lookup_cons]
                      by_cases he : (k == x.1.key) = true
                      · rw [he]
                        intro hk
                        cases hk
                        refine ⟨x.1, urn, id, (beq_iff_eq.mp he).symm, ?_, rfl⟩
                        rw [← hx]
                        exact hl x List.mem_cons_self
                      · rw [Bool.not_eq_true] at he
                        rw [he]
                        exact fun hk => absurd hk hold
                    · exact fun hk => absurd hk hold
  exact gen l [] (fun _ h => h) (fun k ref h => by cases h) hb

/-- **C201** No request crashes the deployment, if the engine answers with the URNs of providers. -/
theorem never_panics (S : Sources) (m : List (Text × (Text × Text))) (l : List (Request × Reply)) (hu : ∀ x ∈ l, Usual x.1)
    (hr : ∀ x ∈ l, ∀ urn id, x.2 = .state urn id → validateURN urn = some true) {b : Served} (hb : b ∈ S.serve m l) : b.answer ≠ .error .panic := by
  obtain ⟨m', x, hx, rfl⟩ := serve_at S hb
  unfold Sources.handle
  split
  · rename_i e he
    intro h
    cases h
    revert he
    cases S.setting with
    | list li =>
      unfold shouldDeny
      simp only
      induction li with
      | nil => exact fun h => by cases h
      | cons o li ih =>
        cases o with
        | none => exact fun h => by cases h
        | some s =>
          unfold denyList
          split
          · exact fun h => by cases h
          · exact ih
    | _ => exact fun h => by cases h
  · simp only
    rw [if_pos (denyRef_valid (noColon_noSep (hu x hx).colon)).1]
    exact fun h => by cases h
  · split
    · exact fun h => by cases h
    · split
      · exact fun h => by cases h
      · rename_i e he
        have hn : e.name = x.1.name := by
          unfold Sources.registration at he
          cases hc : S.config x.1.pkg with
          | none => rw [hc] at he; cases he
          | some i =>
            rw [hc] at he
            simp only [Option.map_some, Option.some.injEq] at he
            rw [← he]
        rw [if_neg (by rw [hn, default_name_legal x.1 (hu x hx).version]; simp)]
        split
        · exact fun h => by cases h
        · exact fun h => by cases h
        · rename_i urn id hx2
          simp only
          rw [if_pos (hr x hx urn id hx2)]
          exact fun h => by cases h

/-! ## Examples and findings -/

def v100 (pre : List Ident) (build : List String) : Version := ⟨1, 0, 0, pre, build⟩

theorem v100_parsed (pre : List Ident) (build : List String)
    (h : (pre.all fun | .num _ => true | .str s => s.toList ≠ [] && s.toList.all identChar && !s.toList.all Char.isDigit) = true)
    (h' : (build.all fun s => s.toList ≠ [] && s.toList.all identChar) = true) : Parsed (v100 pre build) := by
  refine ⟨fun s hs => ?_, fun s hs => ?_⟩
  · have := List.all_eq_true.mp h _ hs
    simp only [ne_eq, Bool.and_eq_true, decide_eq_true_eq, Bool.not_eq_true'] at this
    exact ⟨this.1.1, this.1.2, this.2⟩
  · have := List.all_eq_true.mp h' _ hs
    simp only [ne_eq, Bool.and_eq_true, decide_eq_true_eq] at this
    exact this

example : Usual ⟨some (v100 [.str "alpha", .num 1] ["exp"]), "azure-native".toList, "https://example.com/a-b".toList⟩ :=
  ⟨by decide, by decide, fun v hv => by cases hv; exact v100_parsed _ _ (by decide +kernel) (by decide +kernel),
    .inr ⟨"https".toList, "//example.com/a-b".toList, by decide +kernel, by decide, by decide⟩⟩

example : (Request.mk (some (v100 [.str "alpha", .num 1] ["exp"])) "aws".toList "https://example.com/aé".toList).name =
    "default_1_0_0_alpha_1_exp_https_/example.com/a__".toList := by decide +kernel

def demoSources (s : Setting) : Sources := ⟨s, fun _ => some ⟨none, none, ""⟩, fun p => if p = "gcp".toList then some (v100 [] []) else none, fun _ => []⟩

def provUrn (n : String) : Text := newURN "s".toList "p".toList [] "pulumi:providers:x".toList n.toList

example : ((demoSources (.list [some " aws ".toList])).serve [] [(⟨none, "aws".toList, []⟩, .notTaken), (⟨none, "gcp".toList, []⟩, .notAnswered),
      (⟨none, "gcp".toList, []⟩, .state (provUrn "default") []), (⟨none, "gcp".toList, []⟩, .notTaken)]).map (fun b => (b.answer.toOption, b.registered.map (·.inputs.version))) =
    [(some (denyRef "aws".toList), none), (none, some (some "1.0.0".toList)), (some (provUrn "default", unknownID), some (some "1.0.0".toList)), (some (provUrn "default", unknownID), none)] := by
  decide +kernel

example : Off (.list [some " aws ".toList]) "aws".toList := ⟨[], _, [], rfl, .inr (by decide +kernel), fun y hy => (by cases hy)⟩

/-- **C201, finding** Two versions of a plugin of which one is a pre-release and the other has a build identifier have the same default name: both are registered, with
the same URN. -/
theorem two_versions_one_name : ∃ a b : Request, Usual a ∧ Usual b ∧ a.pkg = b.pkg ∧ a.version ≠ b.version ∧ a.key ≠ b.key ∧ a.name = b.name ∧
    ((demoSources .unset).serve [] [(a, .state (provUrn "x") []), (b, .state (provUrn "x") [])]).map (fun s => s.registered.map fun e => (e.pkg, e.name)) =
      [some (a.pkg, a.name), some (a.pkg, a.name)] := by
  refine ⟨⟨some (v100 [.str "a"] []), "aws".toList, []⟩, ⟨some (v100 [] ["a"]), "aws".toList, []⟩, ⟨by decide, by decide, fun v hv => ?_, .inl rfl⟩,
    ⟨by decide, by decide, fun v hv => ?_, .inl rfl⟩, rfl, by decide +kernel, by decide +kernel, by decide +kernel, by decide +kernel⟩
  · cases hv; exact v100_parsed _ _ (by decide +kernel) (by decide +kernel)
  · cases hv; exact v100_parsed _ _ (by decide +kernel) (by decide +kernel)

/-- **C201, finding** URLs that differ only in characters that names do not have give default providers with the same name, and so the same URN. -/
theorem two_urls_one_name : ∃ a b : Request, Usual a ∧ Usual b ∧ a.pkg = b.pkg ∧ a.version = b.version ∧ a.url ≠ b.url ∧ a.name = b.name := by
  refine ⟨⟨none, "aws".toList, "https://h?a".toList⟩, ⟨none, "aws".toList, "https://h=a".toList⟩, ⟨by decide, by decide, fun v hv => (by cases hv), .inr ⟨"https".toList, "//h?a".toList, ?_⟩⟩,
    ⟨by decide, by decide, fun v hv => (by cases hv), .inr ⟨"https".toList, "//h=a".toList, ?_⟩⟩, rfl, rfl, by decide +kernel, by decide +kernel⟩
  · decide +kernel
  · decide +kernel

/-- **C201, finding** A URL without a scheme can be taken for a part of the version, and a part of a package's name for the version: the second request gets the provider
of the first. -/
theorem wrong_default_provider : (∃ a b : Request, a.pkg = b.pkg ∧ a.version ≠ b.version ∧
      ((demoSources .unset).serve [] [(a, .state (provUrn "x") ['1']), (b, .state (provUrn "y") ['2'])]).map (fun s => s.answer.toOption) = [some (provUrn "x", ['1']), some (provUrn "x", ['1'])]) ∧
    ∃ a b : Request, a.pkg ≠ b.pkg ∧
      ((demoSources .unset).serve [] [(a, .state (provUrn "x") ['1']), (b, .state (provUrn "y") ['2'])]).map (fun s => s.answer.toOption) = [some (provUrn "x", ['1']), some (provUrn "x", ['1'])] :=
  ⟨⟨⟨some (v100 [] []), "aws".toList, "x".toList⟩, ⟨some (v100 [.str "x"] []), "aws".toList, []⟩, rfl, by decide +kernel, by decide +kernel⟩,
    ⟨some (v100 [] []), "foo".toList, []⟩, ⟨none, "foo-1.0.0".toList, []⟩, by decide +kernel, by decide +kernel⟩

/-- **C201, finding** Of the slashes at the end of the URL one is dropped if the request has no version, and two if it has one. -/
theorem slashes_of_urls (parse : Text → Option Version) (p v : Text) (w : Version) (hv : v ≠ []) (hp : parse v = some w) :
    (parseRequest parse p [] "h//".toList).map (·.url) = some "h/".toList ∧ (parseRequest parse p v "h//".toList).map (·.url) = some "h".toList := by
  unfold parseRequest
  rw [if_neg hv, hp, if_pos rfl]
  simp only [Option.map_some, newRequest]
  exact ⟨by decide +kernel, by decide +kernel⟩

end Pulumi.Providers
