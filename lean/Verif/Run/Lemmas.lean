import Verif.Run.Spec
import Verif.Cli.Lemmas
import Verif.Registry.Lemmas
import Std.Data.String.ToInt

/-! # Lemmas on running commands -/

namespace Pulumi.Run

open Pulumi.Cli (Text Arg lit decimal Parsed)

/-! ## Output -/

theorem pieces_line (l rest : Text) (h : '\n' ∉ l) :
    pieces (l ++ '\n' :: rest) = (l ++ ['\n']) :: pieces rest := by
  induction l with
  | nil => simp [pieces]
  | cons c r ih =>
    have hc : c ≠ '\n' := fun e => h (by simp [e])
    have hr : '\n' ∉ r := fun e => h (by simp [e])
    simp [pieces, hc, ih hr]

theorem pieces_last (l : Text) (h : '\n' ∉ l) (hne : l ≠ []) : pieces l = [l] := by
  induction l with
  | nil => exact absurd rfl hne
  | cons c r ih =>
    have hc : c ≠ '\n' := fun e => h (by simp [e])
    have hr : '\n' ∉ r := fun e => h (by simp [e])
    cases r with
    | nil => simp [pieces, hc]
    | cons d r' =>
      have := ih hr (by simp)
      rw [pieces, if_neg hc, this]

theorem pieces_lines (ls : List Text) (rest : Text) (h : ∀ l ∈ ls, '\n' ∉ l) :
    pieces (textOfLines ls ++ rest) = ls.map (· ++ ['\n']) ++ pieces rest := by
  induction ls with
  | nil => rfl
  | cons l r ih =>
    have e : textOfLines (l :: r) ++ rest = l ++ '\n' :: (textOfLines r ++ rest) := by
      simp [textOfLines]
    rw [e, pieces_line l _ (h l (by simp)), ih (fun x hx => h x (by simp [hx]))]
    rfl

theorem waitExit_end (polls : List Bool) (h : true ∈ polls) : waitExit polls = some [] := by
  induction polls with
  | nil => simp at h
  | cons b r ih =>
    cases b with
    | true => rfl
    | false =>
      simp only [List.mem_cons, Bool.true_eq_false, false_or] at h
      exact ih h

theorem waitExit_running (polls : List Bool) (h : true ∉ polls) : waitExit polls = none := by
  induction polls with
  | nil => rfl
  | cons b r ih =>
    cases b with
    | true => simp at h
    | false => exact ih (fun e => h (by simp [e]))

theorem readLoop_lines (space : Char → Bool) (ls : List Text) (polls : List Bool)
    (h : true ∈ polls) : readLoop space ls polls = some (ls.map (rstrip space)) := by
  induction ls with
  | nil => exact waitExit_end polls h
  | cons l r ih =>
    rw [readLoop, ih]
    rfl

theorem readLoop_running (space : Char → Bool) (ls : List Text) (polls : List Bool)
    (h : true ∉ polls) : readLoop space ls polls = none := by
  induction ls with
  | nil => exact waitExit_running polls h
  | cons l r ih =>
    rw [readLoop, ih]
    rfl

theorem rstrip_newline (space : Char → Bool) (hn : space '\n' = true) (l : Text) :
    rstrip space (l ++ ['\n']) = rstrip space l := by
  simp [rstrip, List.dropWhile, hn]

theorem dropWhile_split (space : Char → Bool) (l : Text) :
    ∃ e, l = e ++ l.dropWhile space ∧ ∀ c ∈ e, space c = true := by
  induction l with
  | nil => exact ⟨[], rfl, by simp⟩
  | cons c r ih =>
    obtain ⟨e, h1, h2⟩ := ih
    by_cases hc : space c = true
    · refine ⟨c :: e, ?_, ?_⟩
      · rw [List.dropWhile_cons_of_pos hc, List.cons_append, ← h1]
      · intro d hd
        rcases List.mem_cons.mp hd with rfl | hd
        · exact hc
        · exact h2 d hd
    · exact ⟨[], by rw [List.dropWhile_cons_of_neg hc]; rfl, by simp⟩

theorem dropWhile_head (space : Char → Bool) (l : Text) (c : Char)
    (h : (l.dropWhile space).head? = some c) : space c = false := by
  induction l with
  | nil => simp at h
  | cons d r ih =>
    by_cases hd : space d = true
    · rw [List.dropWhile_cons_of_pos hd] at h
      exact ih h
    · rw [List.dropWhile_cons_of_neg hd] at h
      simp only [List.head?_cons, Option.some.injEq] at h
      rw [← h]
      simpa using hd

theorem rstrip_stripped (space : Char → Bool) (t : Text) : Stripped space t (rstrip space t) := by
  obtain ⟨e, h1, h2⟩ := dropWhile_split space t.reverse
  refine ⟨⟨e.reverse, ?_, ?_⟩, ?_⟩
  · unfold rstrip
    rw [← List.reverse_append, ← h1, List.reverse_reverse]
  · intro c hc
    exact h2 c (List.mem_reverse.mp hc)
  · intro c hc
    unfold rstrip at hc
    rw [List.getLast?_reverse] at hc
    exact dropWhile_head space _ c hc

theorem stripped_unique (space : Char → Bool) (t u v : Text) (hu : Stripped space t u)
    (hv : Stripped space t v) : u = v := by
  obtain ⟨⟨e, h1, h2⟩, h3⟩ := hu
  obtain ⟨⟨f, g1, g2⟩, g3⟩ := hv
  have key : ∀ (u v e f : Text), u ++ e = v ++ f → (∀ c ∈ e, space c = true) →
      (∀ c, v.getLast? = some c → space c = false) → v.length ≤ u.length := by
    intro u v e f h he hv'
    rcases Nat.lt_or_ge u.length v.length with hlt | hge
    · exfalso
      obtain ⟨w, hw⟩ := List.append_eq_append_iff.mp h |>.resolve_right (by
        rintro ⟨w, hw, -⟩
        have : u.length = v.length + w.length := by rw [hw, List.length_append]
        omega)
      have hwne : w ≠ [] := by
        intro e0
        rw [e0, List.append_nil] at hw
        have := congrArg List.length hw.1
        omega
      obtain ⟨x, hx⟩ : ∃ x, w.getLast? = some x := by
        cases hw' : w.getLast? with
        | none => exact absurd (List.getLast?_eq_none_iff.mp hw') hwne
        | some x => exact ⟨x, rfl⟩
      have hxe : x ∈ e := by
        rw [hw.2]
        exact List.mem_append_left _ (List.mem_of_getLast? hx)
      have hvl : v.getLast? = some x := by
        rw [hw.1, List.getLast?_append, hx]
        rfl
      have := hv' x hvl
      rw [he x hxe] at this
      exact Bool.noConfusion this
    · exact hge
  have hl : u.length = v.length :=
    Nat.le_antisymm (key v u f e (g1 ▸ h1) g2 h3) (key u v e f (h1 ▸ g1) h2 g3)
  exact (List.append_inj (h1.symm.trans g1) hl).1

/-! ## Patterns -/

theorem contains_iff (t s : Text) : contains t s = true ↔ Has t s := by
  induction s with
  | nil =>
    simp only [contains, List.isPrefixOf_iff_prefix]
    constructor
    · rintro ⟨r, hr⟩
      exact ⟨[], r, by simpa using hr.symm⟩
    · rintro ⟨pre, post, h⟩
      have h' := h.symm
      simp only [List.append_eq_nil_iff] at h'
      exact ⟨[], by simp [h'.1.2]⟩
  | cons c r ih =>
    simp only [contains, Bool.or_eq_true, List.isPrefixOf_iff_prefix, ih]
    constructor
    · rintro (⟨q, hq⟩ | ⟨pre, post, h⟩)
      · exact ⟨[], q, by simpa using hq.symm⟩
      · exact ⟨c :: pre, post, by simp [h]⟩
    · rintro ⟨pre, post, h⟩
      cases pre with
      | nil => exact Or.inl ⟨post, by simpa using h.symm⟩
      | cons d pre' =>
        simp only [List.cons_append, List.cons.injEq] at h
        exact Or.inr ⟨pre', post, h.2⟩

theorem gapThen_iff (b s : Text) :
    gapThen b s = true ↔ ∃ mid post, s = mid ++ b ++ post ∧ '\n' ∉ mid := by
  induction s with
  | nil =>
    simp only [gapThen, List.isPrefixOf_iff_prefix]
    constructor
    · rintro ⟨r, hr⟩
      exact ⟨[], r, by simpa using hr.symm, by simp⟩
    · rintro ⟨mid, post, h, -⟩
      have h' := h.symm
      simp only [List.append_eq_nil_iff] at h'
      exact ⟨[], by simp [h'.1.2]⟩
  | cons c r ih =>
    simp only [gapThen, Bool.or_eq_true, Bool.and_eq_true, List.isPrefixOf_iff_prefix, ih,
      bne_iff_ne, ne_eq]
    constructor
    · rintro (⟨q, hq⟩ | ⟨hc, mid, post, h, hm⟩)
      · exact ⟨[], q, by simpa using hq.symm, by simp⟩
      · exact ⟨c :: mid, post, by simp [h], by simp [hm, Ne.symm (a := c) hc]⟩
    · rintro ⟨mid, post, h, hm⟩
      cases mid with
      | nil => exact Or.inl ⟨post, by simpa using h.symm⟩
      | cons d mid' =>
        simp only [List.cons_append, List.cons.injEq] at h
        simp only [List.mem_cons, not_or] at hm
        exact Or.inr ⟨fun e => hm.1 (by rw [← h.1, e]), mid', post, h.2, hm.2⟩

theorem gapAt_iff (a b s : Text) :
    gapAt a b s = true ↔ ∃ mid post, s = a ++ mid ++ b ++ post ∧ '\n' ∉ mid := by
  simp only [gapAt, Bool.and_eq_true, List.isPrefixOf_iff_prefix, gapThen_iff]
  constructor
  · rintro ⟨⟨q, hq⟩, mid, post, h, hm⟩
    refine ⟨mid, post, ?_, hm⟩
    rw [← hq, List.drop_left] at h
    rw [← hq, h]
    simp
  · rintro ⟨mid, post, h, hm⟩
    refine ⟨⟨mid ++ b ++ post, by rw [h]; simp⟩, mid, post, ?_, hm⟩
    rw [h, List.append_assoc, List.append_assoc, List.drop_left]
    simp

theorem searchGap_iff (a b s : Text) : searchGap a b s = true ↔ Says a b s := by
  induction s with
  | nil =>
    simp only [searchGap, gapAt_iff]
    constructor
    · rintro ⟨mid, post, h, hm⟩
      exact ⟨[], mid, post, by simpa using h, hm⟩
    · rintro ⟨pre, mid, post, h, hm⟩
      cases pre with
      | nil => exact ⟨mid, post, by simpa using h, hm⟩
      | cons d pre' => simp at h
  | cons c r ih =>
    simp only [searchGap, Bool.or_eq_true, gapAt_iff, ih]
    constructor
    · rintro (⟨mid, post, h, hm⟩ | ⟨pre, mid, post, h, hm⟩)
      · exact ⟨[], mid, post, by simpa using h, hm⟩
      · exact ⟨c :: pre, mid, post, by simp [h], hm⟩
    · rintro ⟨pre, mid, post, h, hm⟩
      cases pre with
      | nil => exact Or.inl ⟨mid, post, by simpa using h, hm⟩
      | cons d pre' =>
        simp only [List.cons_append, List.cons.injEq] at h
        exact Or.inr ⟨pre', mid, post, h.2, hm⟩

theorem dotAt_iff (a s : Text) :
    dotAt a s = true ↔ ∃ c post, s = a ++ c :: post ∧ c ≠ '\n' := by
  simp only [dotAt, Bool.and_eq_true, List.isPrefixOf_iff_prefix]
  constructor
  · rintro ⟨⟨q, hq⟩, h⟩
    rw [← hq, List.drop_left] at h
    cases q with
    | nil => simp at h
    | cons c post => exact ⟨c, post, hq.symm, by simpa using h⟩
  · rintro ⟨c, post, h, hc⟩
    refine ⟨⟨c :: post, h.symm⟩, ?_⟩
    rw [h, List.drop_left]
    simpa using hc

theorem searchDot_iff (a s : Text) : searchDot a s = true ↔ Goes a s := by
  induction s with
  | nil =>
    simp only [searchDot, dotAt_iff]
    constructor
    · rintro ⟨c, post, h, hc⟩
      exact ⟨[], c, post, by simpa using h, hc⟩
    · rintro ⟨pre, c, post, h, hc⟩
      simp at h
  | cons d r ih =>
    simp only [searchDot, Bool.or_eq_true, dotAt_iff, ih]
    constructor
    · rintro (⟨c, post, h, hc⟩ | ⟨pre, c, post, h, hc⟩)
      · exact ⟨[], c, post, by simpa using h, hc⟩
      · exact ⟨d :: pre, c, post, by simp [h], hc⟩
    · rintro ⟨pre, c, post, h, hc⟩
      cases pre with
      | nil => exact Or.inl ⟨c, post, by simpa using h, hc⟩
      | cons e pre' =>
        simp only [List.cons_append, List.cons.injEq] at h
        exact Or.inr ⟨pre', c, post, h.2, hc⟩

theorem pick_names (r : Result) (b1 b2 b3 b4 b5 b6 : Bool) (h1 : b1 = true ↔ SaysNotFound r)
    (h2 : b2 = true ↔ SaysExists r) (h3 : b3 = true ↔ SaysConflict r)
    (h4 : b4 = true ↔ SaysCompilation r) (h5 : b5 = true ↔ SaysInline r)
    (h6 : b6 = true ↔ SaysRuntime r) :
    Names r (if b1 then .stackNotFound else if b2 then .stackAlreadyExists
      else if b3 then .concurrentUpdate else if b4 then .compilation
      else if b5 then .inlineSourceRuntime else if b6 then .runtime else .command) := by
  cases b1 with
  | true => exact .notFound r (h1.mp rfl)
  | false =>
  have n1 : ¬ SaysNotFound r := fun h => Bool.noConfusion (h1.mpr h)
  cases b2 with
  | true => exact .exists_ r n1 (h2.mp rfl)
  | false =>
  have n2 : ¬ SaysExists r := fun h => Bool.noConfusion (h2.mpr h)
  cases b3 with
  | true => exact .conflict r n1 n2 (h3.mp rfl)
  | false =>
  have n3 : ¬ SaysConflict r := fun h => Bool.noConfusion (h3.mpr h)
  cases b4 with
  | true => exact .compilation r n1 n2 n3 (h4.mp rfl)
  | false =>
  have n4 : ¬ SaysCompilation r := fun h => Bool.noConfusion (h4.mpr h)
  cases b5 with
  | true => exact .inline r n1 n2 n3 n4 (h5.mp rfl)
  | false =>
  have n5 : ¬ SaysInline r := fun h => Bool.noConfusion (h5.mpr h)
  cases b6 with
  | true => exact .runtime r n1 n2 n3 n4 n5 (h6.mp rfl)
  | false => exact .other r n1 n2 n3 n4 n5 (fun h => Bool.noConfusion (h6.mpr h))

theorem or3 (a b c : Bool) (A B C : Prop) (ha : a = true ↔ A) (hb : b = true ↔ B)
    (hc : c = true ↔ C) : (a || b || c) = true ↔ A ∨ B ∨ C := by
  rw [Bool.or_eq_true, Bool.or_eq_true, ha, hb, hc, or_assoc]

theorem or4 (a b c d : Bool) (A B C D : Prop) (ha : a = true ↔ A) (hb : b = true ↔ B)
    (hc : c = true ↔ C) (hd : d = true ↔ D) : (a || b || c || d) = true ↔ A ∨ B ∨ C ∨ D := by
  rw [Bool.or_eq_true, Bool.or_eq_true, Bool.or_eq_true, ha, hb, hc, hd, or_assoc, or_assoc]

theorem classify_names (r : Result) : Names r (classify r) :=
  pick_names r _ _ _ _ _ _ (searchGap_iff _ _ _) (searchGap_iff _ _ _) (contains_iff _ _)
    (or4 _ _ _ _ _ _ _ _ (searchDot_iff _ _) (contains_iff _ _) (contains_iff _ _)
      (contains_iff _ _))
    (contains_iff _ _)
    (or3 _ _ _ _ _ _ (contains_iff _ _) (contains_iff _ _) (contains_iff _ _))

attribute [local irreducible] SaysNotFound SaysExists SaysConflict SaysCompilation SaysInline
  SaysRuntime in
theorem names_unique (r : Result) (a b : ErrorClass) (ha : Names r a) (hb : Names r b) :
    a = b := by
  cases ha <;> cases hb <;> first | rfl | contradiction

/-! ## The messages of the stacks -/

/-- Whether a space is followed by `n`. -/
def spaceN : Bool → Text → Bool
  | _, [] => false
  | p, c :: r => (p && decide (c = 'n')) || spaceN (decide (c = ' ')) r

theorem spaceN_has (p : Bool) (s : Text) (h : Has [' ', 'n'] s) : spaceN p s = true := by
  obtain ⟨pre, post, rfl⟩ := h
  induction pre generalizing p with
  | nil => simp [spaceN]
  | cons c r ih =>
    have := ih (decide (c = ' '))
    simp only [List.cons_append, spaceN, Bool.or_eq_true]
    exact Or.inr this

theorem spaceN_name (n rest : Text) (h : ∀ c ∈ n, c ≠ ' ') (hr : spaceN false rest = false) :
    spaceN false (n ++ rest) = false := by
  induction n with
  | nil => exact hr
  | cons c r ih =>
    have hc : c ≠ ' ' := h c (by simp)
    simp only [List.cons_append, spaceN, Bool.false_and, Bool.false_or]
    rw [decide_eq_false hc]
    exact ih (fun d hd => h d (by simp [hd]))

theorem exists_message (n : Text) (h : ValidName n) (out : Text) (code : Int) :
    ¬ SaysNotFound ⟨out, "error: stack '".toList ++ n ++ "' already exists\n".toList, code⟩
    ∧ SaysExists ⟨out, "error: stack '".toList ++ n ++ "' already exists\n".toList, code⟩ := by
  constructor
  · rintro ⟨pre, mid, post, hs, -⟩
    simp only at hs
    have hh : Has [' ', 'n'] ("error: stack '".toList ++ n ++ "' already exists\n".toList) :=
      ⟨pre ++ "no stack".toList, "amed".toList ++ mid ++ "found".toList ++ post, by
        rw [hs]
        have : "no stack named".toList = "no stack".toList ++ ([' ', 'n'] ++ "amed".toList) := rfl
        rw [this]
        simp only [List.append_assoc]⟩
    have ht := spaceN_has false _ hh
    have hf : spaceN false ("error: stack '".toList ++ n ++ "' already exists\n".toList)
        = false := by
      have e : ∀ rest, spaceN false ("error: stack '".toList ++ rest) = spaceN false rest :=
        fun _ => rfl
      rw [List.append_assoc, e]
      exact spaceN_name n _ (fun c hc => (h c hc).1) rfl
    rw [hf] at ht
    exact Bool.noConfusion ht
  · refine ⟨"error: ".toList, " '".toList ++ n ++ "' ".toList, ['\n'], ?_, ?_⟩
    · simp only
      have e1 : "error: stack '".toList = "error: ".toList ++ "stack".toList ++ " '".toList := rfl
      have e2 : "' already exists\n".toList = "' ".toList ++ "already exists".toList ++ ['\n'] := rfl
      rw [e1, e2]
      simp only [List.append_assoc]
    · rw [List.mem_append, List.mem_append, not_or, not_or]
      exact ⟨⟨by decide, fun hn => (h _ hn).2 rfl⟩, by decide⟩

theorem notFound_message (n : Text) (h : ValidName n) (out : Text) (code : Int) :
    SaysNotFound ⟨out, "error: no stack named '".toList ++ n ++ "' found\n".toList, code⟩ := by
  refine ⟨"error: ".toList, " '".toList ++ n ++ "' ".toList, ['\n'], ?_, ?_⟩
  · simp only
    have e1 : "error: no stack named '".toList
        = "error: ".toList ++ "no stack named".toList ++ " '".toList := rfl
    have e2 : "' found\n".toList = "' ".toList ++ "found".toList ++ ['\n'] := rfl
    rw [e1, e2]
    simp only [List.append_assoc]
  · rw [List.mem_append, List.mem_append, not_or, not_or]
    exact ⟨⟨by decide, fun hn => (h _ hn).2 rfl⟩, by decide⟩

theorem classify_of (r : Result) (e : ErrorClass) (h : Names r e) : classify r = e :=
  names_unique r _ _ (classify_names r) h

theorem run_done (space : Char → Bool) (p : Process) (polls : List Bool) (h : true ∈ polls) :
    run space p polls = some ((pieces p.output).map (rstrip space),
      if p.code = 0 then .ok ⟨joinLines ((pieces p.output).map (rstrip space)), p.errors, p.code⟩
      else .raised (classify ⟨joinLines ((pieces p.output).map (rstrip space)), p.errors, p.code⟩)
        ⟨joinLines ((pieces p.output).map (rstrip space)), p.errors, p.code⟩) := by
  simp only [run, readLoop_lines space _ polls h]

theorem raises_ok (space : Char → Bool) (p : Process) (h : p.code = 0) : raises space p = none := by
  unfold raises
  rw [run_done space p [true] (by simp), if_pos h]

theorem raises_err (space : Char → Bool) (p : Process) (h : p.code ≠ 0) :
    raises space p
      = some (classify ⟨joinLines ((pieces p.output).map (rstrip space)), p.errors, p.code⟩) := by
  unfold raises
  rw [run_done space p [true] (by simp), if_neg h]

/-! ## Outputs -/

theorem getKey_outputs (show_ : Bool) (outs : List (Text × S)) (hd : (outs.map (·.1)).Nodup)
    (k : Text) (s : S) (h : (k, s) ∈ outs) :
    getKey (outputJson show_ outs) k = some (s.json show_) := by
  induction outs with
  | nil => simp at h
  | cons e r ih =>
    obtain ⟨k', s'⟩ := e
    simp only [List.map_cons, List.nodup_cons] at hd
    rcases List.mem_cons.mp h with he | hr
    · simp only [Prod.mk.injEq] at he
      simp [outputJson, getKey, he]
    · have hne : k' ≠ k := by
        intro e
        exact hd.1 (e ▸ List.mem_map.mpr ⟨(k, s), hr, rfl⟩)
      simp only [outputJson, List.map_cons, getKey, if_neg hne]
      exact ih hd.2 hr

theorem stackOutputs_sub (outs l : List (Text × S)) (hd : (outs.map (·.1)).Nodup)
    (hl : ∀ e ∈ l, e ∈ outs) :
    stackOutputs (outputJson false outs) (outputJson true l)
      = some (l.map fun ks => (ks.1, ks.2.json true, isSentinel (ks.2.json false))) := by
  induction l with
  | nil => rfl
  | cons e r ih =>
    obtain ⟨k, s⟩ := e
    have h1 := getKey_outputs false outs hd k s (hl _ (by simp))
    have h2 := ih (fun x hx => hl x (by simp [hx]))
    simp only [outputJson, List.map_cons, stackOutputs] at h1 h2 ⊢
    rw [h1, h2]

theorem stackOutputs_keys (masked plain : List (Text × V)) (r : List (Text × V × Bool))
    (h : stackOutputs masked plain = some r) (k : Text) (v : V) (hk : (k, v) ∈ plain) :
    getKey masked k ≠ none := by
  induction plain generalizing r with
  | nil => simp at hk
  | cons e t ih =>
    obtain ⟨k', v'⟩ := e
    simp only [stackOutputs] at h
    cases hg : getKey masked k' with
    | none => rw [hg] at h; simp at h
    | some m =>
      cases hs : stackOutputs masked t with
      | none => rw [hg, hs] at h; simp at h
      | some rest =>
        rcases List.mem_cons.mp hk with he | ht
        · simp only [Prod.mk.injEq] at he
          rw [he.1, hg]
          simp
        · exact ih rest hs ht

end Pulumi.Run
