import Verif.Exec.Trace

/-!
# Paths: lemmas
-/

namespace Pulumi.Exec

open Json (Text)

/-- A name of a file or directory: not empty, no dots that mean a directory, no slash. -/
def Name (b : Text) : Prop := b ≠ [] ∧ b ≠ ['.'] ∧ b ≠ ['.', '.'] ∧ '/' ∉ b

/-! ## Splitting -/

theorem split_ne (s : Text) : split s ≠ [] := by
  cases s with
  | nil => simp [split]
  | cons c s =>
    rw [split]
    split
    · simp
    · split <;> simp

theorem split_noSlash {b : Text} (h : '/' ∉ b) : split b = [b] := by
  induction b with
  | nil => rfl
  | cons c b ih =>
    simp only [List.mem_cons, not_or] at h
    rw [split, ih h.2]
    simp only
    rw [if_neg (fun e => h.1 e.symm)]

theorem split_slash (a b : Text) : split (a ++ '/' :: b) = split a ++ split b := by
  induction a with
  | nil =>
    rw [List.nil_append, split]
    cases hb : split b with
    | nil => exact absurd hb (split_ne b)
    | cons w ws => simp [split, hb]
  | cons c a ih =>
    rw [List.cons_append, split, ih, split]
    cases ha : split a with
    | nil => exact absurd ha (split_ne a)
    | cons w ws =>
      simp only [List.cons_append]
      by_cases hc : c = '/'
      · rw [if_pos hc, if_pos hc]; rfl
      · rw [if_neg hc, if_neg hc]; rfl

/-! ## Normal components -/

theorem normStep_name (n : Nat) (acc : List Text) {b : Text} (h : Name b) : normStep n acc b = b :: acc := by
  rw [normStep, if_neg (fun e => e.elim h.1 h.2.1), if_pos (.inl h.2.2.1)]

theorem normStep_empty (n : Nat) (acc : List Text) : normStep n acc [] = acc := by rw [normStep, if_pos (.inl rfl)]

theorem normComps_append (n : Nat) (cs : List Text) {b : Text} (h : Name b) : normComps n (cs ++ [b]) = normComps n cs ++ [b] := by
  unfold normComps
  rw [List.foldl_append]
  simp [normStep_name n _ h]

theorem foldl_names (n : Nat) (acc cs : List Text) (h : ∀ c ∈ cs, Name c) : cs.foldl (normStep n) acc = cs.reverse ++ acc := by
  induction cs generalizing acc with
  | nil => rfl
  | cons c cs ih =>
    rw [List.foldl_cons, normStep_name n acc (h c (by simp)), ih _ (fun x hx => h x (List.mem_cons_of_mem _ hx))]
    simp

theorem split_mem_noSlash (s : Text) : ∀ w ∈ split s, '/' ∉ w := by
  induction s with
  | nil => intro w hw; simp [split] at hw; subst hw; simp
  | cons c s ih =>
    intro w hw
    rw [split] at hw
    split at hw
    · simp at hw; subst hw; simp
    · next x xs e =>
      rw [e] at ih
      split at hw
      · rcases List.mem_cons.1 hw with rfl | hw
        · simp
        · exact ih w hw
      · next hc =>
        rcases List.mem_cons.1 hw with rfl | hw
        · have := ih x (by simp)
          simp only [List.mem_cons, not_or]
          exact ⟨fun e => hc e.symm, this⟩
        · exact ih w (List.mem_cons_of_mem _ hw)

/-- For an absolute path, all components of the normal path are names. -/
theorem normComps_names (n : Nat) (hn : n ≠ 0) (cs : List Text) (hcs : ∀ c ∈ cs, '/' ∉ c) : ∀ c ∈ normComps n cs, Name c := by
  have key : ∀ acc : List Text, (∀ c ∈ acc, Name c) → ∀ c ∈ cs.foldl (normStep n) acc, Name c := by
    induction cs with
    | nil => exact fun acc h => h
    | cons x xs ih =>
      intro acc h
      rw [List.foldl_cons]
      refine ih (fun c hc => hcs c (List.mem_cons_of_mem _ hc)) _ ?_
      unfold normStep
      split
      · exact h
      · next h1 =>
        split
        · next h2 =>
          intro c hc
          rcases List.mem_cons.1 hc with rfl | hc
          · refine ⟨fun e => h1 (.inl e), fun e => h1 (.inr e), ?_, hcs _ (by simp)⟩
            rcases h2 with h2 | h2 | h2
            · exact h2
            · exact absurd h2.1 hn
            · cases acc with
              | nil => simp at h2
              | cons a acc =>
                simp at h2
                exact absurd h2 (h a (by simp)).2.2.1
          · exact h c hc
        · exact fun c hc => h c (List.mem_of_mem_tail hc)
  intro c hc
  unfold normComps at hc
  exact key [] (by simp) c (List.mem_reverse.1 hc)

/-! ## Absolute paths -/

/-- The text of an absolute path. -/
def render (n : Nat) (cs : List Text) : Text := List.replicate n '/' ++ joinSlash cs

theorem slashes_three (a b c : Char) (t : Text) : slashes (a :: b :: c :: t) =
    if a = '/' then if b = '/' then if c = '/' then 1 else 2 else 1 else 0 := by
  by_cases ha : a = '/'
  · by_cases hb : b = '/'
    · by_cases hc : c = '/' <;> simp [slashes, ha, hb, hc]
    · simp [slashes, ha, hb]
  · simp [slashes, ha]

theorem slashes_abs {p : Text} (h : p.head? = some '/') : slashes p = 1 ∨ slashes p = 2 := by
  cases p with
  | nil => cases h
  | cons c p =>
    simp at h; subst h
    unfold slashes
    split <;> simp_all

theorem normpath_abs {p : Text} (h : p.head? = some '/') : normpath p = render (slashes p) (normComps (slashes p) (split p)) := by
  unfold normpath
  simp only
  rw [if_neg]
  · rfl
  · rcases slashes_abs h with e | e <;> rw [e] <;> simp [List.replicate]

theorem joinSlash_append (cs : List Text) (b : Text) (h : cs ≠ []) : joinSlash (cs ++ [b]) = joinSlash cs ++ '/' :: b := by
  induction cs with
  | nil => exact absurd rfl h
  | cons c cs ih =>
    cases cs with
    | nil => rfl
    | cons d cs =>
      have := ih (by simp)
      have e : ∀ t : List Text, t ≠ [] → joinSlash (c :: t) = c ++ '/' :: joinSlash t := by
        intro t ht
        cases t with
        | nil => exact absurd rfl ht
        | cons d t => rw [joinSlash]; simp
      rw [List.cons_append, e _ (by simp), this, e _ (by simp)]
      simp

theorem joinSlash_head (cs : List Text) (h : ∀ c ∈ cs, Name c) : (joinSlash cs).head? ≠ some '/' := by
  cases cs with
  | nil => simp [joinSlash]
  | cons c cs =>
    have hc := h c (by simp)
    cases c with
    | nil => exact absurd rfl hc.1
    | cons x c =>
      have hx : x ≠ '/' := fun e => hc.2.2.2 (by rw [e]; simp)
      cases cs with
      | nil => simp [joinSlash, hx]
      | cons d cs =>
        rw [joinSlash]
        · simp [hx]
        · simp

theorem split_joinSlash (cs : List Text) (h : ∀ c ∈ cs, Name c) (hne : cs ≠ []) : split (joinSlash cs) = cs := by
  induction cs with
  | nil => exact absurd rfl hne
  | cons c cs ih =>
    cases cs with
    | nil => rw [joinSlash, split_noSlash (h c (by simp)).2.2.2]
    | cons d cs =>
      rw [joinSlash]
      · rw [split_slash, split_noSlash (h c (by simp)).2.2.2, ih (fun x hx => h x (List.mem_cons_of_mem _ hx)) (by simp)]
        rfl
      · simp

theorem slashes_render (n : Nat) (hn : n = 1 ∨ n = 2) (cs : List Text) (h : ∀ c ∈ cs, Name c) : slashes (render n cs) = n := by
  have hh := joinSlash_head cs h
  unfold render
  generalize joinSlash cs = t at hh
  rcases hn with rfl | rfl
  · show slashes ('/' :: t) = 1
    cases t with
    | nil => rfl
    | cons c t =>
      have : c ≠ '/' := by simpa using hh
      simp [slashes, this]
  · show slashes ('/' :: '/' :: t) = 2
    cases t with
    | nil => rfl
    | cons c t =>
      have : c ≠ '/' := by simpa using hh
      simp [slashes, this]

theorem render_head (n : Nat) (hn : n = 1 ∨ n = 2) (cs : List Text) : (render n cs).head? = some '/' := by
  rcases hn with rfl | rfl <;> rfl

theorem normComps_render (n m : Nat) (hn : n = 1 ∨ n = 2) (cs : List Text) (h : ∀ c ∈ cs, Name c) :
    normComps m (split (render n cs)) = cs := by
  have e : (split (render n cs)).foldl (normStep m) [] = (split (joinSlash cs)).foldl (normStep m) [] := by
    unfold render
    have s1 : ∀ t, split ('/' :: t) = [] :: split t := fun t => split_slash [] t
    rcases hn with rfl | rfl
    · show (split ('/' :: joinSlash cs)).foldl _ _ = _
      rw [s1, List.foldl_cons, normStep_empty]
    · show (split ('/' :: '/' :: joinSlash cs)).foldl _ _ = _
      rw [s1, s1, List.foldl_cons, normStep_empty, List.foldl_cons, normStep_empty]
  unfold normComps
  rw [e]
  by_cases hc : cs = []
  · subst hc; rfl
  · rw [split_joinSlash cs h hc, foldl_names m [] cs h]
    simp

/-- A normal path is normal. -/
theorem normpath_render (n : Nat) (hn : n = 1 ∨ n = 2) (cs : List Text) (h : ∀ c ∈ cs, Name c) :
    normpath (render n cs) = render n cs := by
  rw [normpath_abs (render_head n hn cs), slashes_render n hn cs h, normComps_render n n hn cs h]

/-- Slashes at the beginning do not depend on the name at the end. -/
theorem slashes_last (x : Text) (hx : x.getLast? = some '/') (b c : Text) (hb : Name b) (hc : Name c) :
    slashes (x ++ b) = slashes (x ++ c) := by
  have hf : ∀ b : Text, Name b → ∃ y b', b = y :: b' ∧ y ≠ '/' := by
    intro b hb
    cases b with
    | nil => exact absurd rfl hb.1
    | cons y b => exact ⟨y, b, rfl, fun e => hb.2.2.2 (by rw [e]; simp)⟩
  obtain ⟨y, b, rfl, hy⟩ := hf b hb
  obtain ⟨z, c, rfl, hz⟩ := hf c hc
  match x, hx with
  | [], hx => cases hx
  | [a], hx =>
    simp at hx; subst hx
    simp [slashes, hy, hz]
  | [a, a'], hx =>
    simp at hx; subst hx
    by_cases ha : a = '/'
    · subst ha; simp [slashes, hy, hz]
    · simp [slashes, ha]
  | a :: a' :: a'' :: x, _ =>
    simp only [List.cons_append, slashes_three]

/-! ## Where a path leads -/

/-- The directory that a path leads to when it is what is before a name: the slashes and the components. -/
def locDir (cwd d : Text) : Nat × List Text :=
  let x := if d.head? = some '/' then d else if cwd.getLast? = some '/' then cwd ++ d else cwd ++ '/' :: d
  (slashes (x ++ ['a']), normComps (slashes (x ++ ['a'])) (split (x.dropLast)))

theorem locDir_ok (cwd d : Text) (hcwd : cwd.head? = some '/') (hd : d = [] ∨ d.getLast? = some '/') :
    ((locDir cwd d).1 = 1 ∨ (locDir cwd d).1 = 2) ∧ ∀ c ∈ (locDir cwd d).2, Name c := by
  have hx : ∀ x : Text, x.head? = some '/' → (slashes (x ++ ['a']) = 1 ∨ slashes (x ++ ['a']) = 2) ∧
      ∀ c ∈ normComps (slashes (x ++ ['a'])) (split x.dropLast), Name c := by
    intro x hx
    have h1 : slashes (x ++ ['a']) = 1 ∨ slashes (x ++ ['a']) = 2 := slashes_abs (by
      cases x with
      | nil => cases hx
      | cons c x => simpa using hx)
    exact ⟨h1, normComps_names _ (by omega) _ (split_mem_noSlash _)⟩
  unfold locDir
  apply hx
  split
  · assumption
  · cases cwd with
    | nil => cases hcwd
    | cons c cwd => split <;> simpa using hcwd

theorem name_a : Name ['a'] := by unfold Name; decide

theorem joined (cwd d b : Text) (hcwd : cwd.head? = some '/') (hd : d = [] ∨ d.getLast? = some '/') (hb : Name b) :
    ∃ x : Text, x.getLast? = some '/' ∧ x.head? = some '/' ∧
      (if d.head? = some '/' then d else if cwd.getLast? = some '/' then cwd ++ d else cwd ++ '/' :: d) = x ∧
      (if (d ++ b).head? = some '/' then d ++ b else join cwd (d ++ b)) = x ++ b := by
  have hbh : b.head? ≠ some '/' := by
    cases b with
    | nil => simp
    | cons y b => simp only [List.head?_cons, ne_eq, Option.some.injEq]; exact fun e => hb.2.2.2 (by rw [e]; simp)
  have hcn : cwd ≠ [] := by rintro rfl; cases hcwd
  rcases hd with rfl | hd
  · have h0 : ([] : Text).head? ≠ some '/' := by simp
    have h1 : (([] : Text) ++ b).head? ≠ some '/' := hbh
    rw [if_neg h0, if_neg h1, join, if_neg h1]
    by_cases hl : cwd.getLast? = some '/'
    · refine ⟨cwd, hl, hcwd, by rw [if_pos hl, List.append_nil], ?_⟩
      rw [if_pos (.inr hl)]; rfl
    · refine ⟨cwd ++ ['/'], by simp, ?_, by rw [if_neg hl], ?_⟩
      · cases cwd with
        | nil => cases hcwd
        | cons c cwd => simpa using hcwd
      · rw [if_neg (fun e => e.elim hcn hl)]; simp
  · have hdn : d ≠ [] := by rintro rfl; cases hd
    have hhead : (d ++ b).head? = d.head? := by
      cases d with
      | nil => exact absurd rfl hdn
      | cons c d => rfl
    rw [hhead]
    by_cases hs : d.head? = some '/'
    · rw [if_pos hs, if_pos hs]
      exact ⟨d, hd, hs, rfl, rfl⟩
    · rw [if_neg hs, if_neg hs, join, hhead, if_neg hs]
      by_cases hl : cwd.getLast? = some '/'
      · refine ⟨cwd ++ d, ?_, ?_, by rw [if_pos hl], ?_⟩
        · rw [List.getLast?_append, hd]; rfl
        · cases cwd with
          | nil => cases hcwd
          | cons c cwd => simpa using hcwd
        · rw [if_pos (.inr hl), List.append_assoc]
      · refine ⟨cwd ++ '/' :: d, ?_, ?_, by rw [if_neg hl], ?_⟩
        · rw [List.getLast?_append]
          have : ('/' :: d).getLast? = some '/' := by
            cases d with
            | nil => rfl
            | cons c d => rw [List.getLast?_cons_cons]; exact hd
          rw [this]; rfl
        · cases cwd with
          | nil => cases hcwd
          | cons c cwd => simpa using hcwd
        · rw [if_neg (fun e => e.elim hcn hl), List.append_assoc]; rfl

theorem snoc_of_getLast {x : Text} (h : x.getLast? = some '/') : x = x.dropLast ++ ['/'] := by
  have hne : x ≠ [] := by rintro rfl; cases h
  have := List.dropLast_concat_getLast hne
  rw [List.getLast?_eq_some_getLast hne, Option.some.injEq] at h
  rw [h] at this
  exact this.symm

/-- A path that ends with a name leads to that name in the directory that is before it. -/
theorem abspath_name (cwd d b : Text) (hcwd : cwd.head? = some '/') (hd : d = [] ∨ d.getLast? = some '/') (hb : Name b) :
    abspath cwd (d ++ b) = render (locDir cwd d).1 ((locDir cwd d).2 ++ [b]) := by
  obtain ⟨x, hl, hh, e1, e2⟩ := joined cwd d b hcwd hd hb
  unfold abspath locDir
  rw [e2]
  simp only [e1]
  have hxb : (x ++ b).head? = some '/' := by
    cases x with
    | nil => cases hh
    | cons c x => simpa using hh
  rw [normpath_abs hxb, slashes_last x hl b ['a'] hb name_a]
  have : split (x ++ b) = split x.dropLast ++ [b] := by
    conv => lhs; rw [snoc_of_getLast hl]
    rw [List.append_assoc]
    show split (x.dropLast ++ '/' :: b) = _
    rw [split_slash, split_noSlash hb.2.2.2]
  rw [this, normComps_append _ _ hb]

theorem head_append_cons (p : Text) (c : Char) (s : Text) (h : p ≠ []) : (p ++ c :: s).head? = p.head? := by
  cases p with
  | nil => exact absurd rfl h
  | cons a p => rfl

/-! ## The directory of a path, and its name -/

theorem base_dir (d b : Text) (hd : d = [] ∨ d.getLast? = some '/') (hb : '/' ∉ b) : dirPart (d ++ b) = d ∧ basePart (d ++ b) = b := by
  have hall : ∀ c ∈ b.reverse, (decide (c ≠ '/')) = true := by
    intro c hc
    simp only [ne_eq, decide_not, Bool.not_eq_eq_eq_not, Bool.not_true, decide_eq_false_iff_not]
    rintro rfl
    exact hb (List.mem_reverse.1 hc)
  have hd' : d.reverse = [] ∨ ∃ r, d.reverse = '/' :: r := by
    rcases hd with rfl | hd
    · exact .inl rfl
    · right
      rw [snoc_of_getLast hd]
      exact ⟨_, by simp; rfl⟩
  unfold dirPart basePart
  rw [List.reverse_append]
  constructor
  · rw [List.dropWhile_append_of_pos hall]
    rcases hd' with e | ⟨r, e⟩
    · rw [e]
      have : d = [] := by simpa using e
      rw [this]; rfl
    · rw [e]
      simp only [List.dropWhile_cons]
      rw [if_neg (by decide), ← e, List.reverse_reverse]
  · rw [List.takeWhile_append_of_pos hall]
    rcases hd' with e | ⟨r, e⟩
    · rw [e]; simp
    · rw [e]; simp

/-! ## Extensions -/

theorem splitBase_name {b : Text} (hb : Name b) (he : (splitBase b).2 ≠ []) : Name (splitBase b).1 := by
  have hsub : ∀ c ∈ (splitBase b).1, c ∈ b := by
    unfold splitBase
    simp only
    split
    · exact fun c h => h
    · next u e =>
      intro c hc
      rcases List.mem_append.1 hc with hc | hc
      · exact (List.takeWhile_sublist _).mem hc
      · have h1 : c ∈ (b.dropWhile (· = '.')).reverse.dropWhile (· ≠ '.') := by
          rw [e]; exact List.mem_cons_of_mem _ (List.mem_reverse.1 hc)
        have h2 := (List.dropWhile_sublist _).mem h1
        exact (List.dropWhile_sublist _).mem (List.mem_reverse.1 h2)
  have hdot : ∃ c ∈ (splitBase b).1, c ≠ '.' := by
    unfold splitBase at he ⊢
    simp only at he ⊢
    split at he
    · exact absurd rfl he
    · next y u e =>
      simp only
      have hrest : b.dropWhile (· = '.') ≠ [] := by
        intro h; rw [h] at e; cases e
      have hy : y = '.' := by
        have := List.head?_dropWhile_not (fun c => decide (c ≠ '.')) (b.dropWhile (· = '.')).reverse
        rw [e] at this
        simpa using this
      subst hy
      -- the rest is `u` reversed, a dot, and what is after it
      have hdec : b.dropWhile (· = '.') = u.reverse ++ '.' :: ((b.dropWhile (· = '.')).reverse.takeWhile (· ≠ '.')).reverse := by
        have h1 := List.takeWhile_append_dropWhile (p := fun c => decide (c ≠ '.')) (l := (b.dropWhile (· = '.')).reverse)
        have h2 := congrArg List.reverse h1
        rw [List.reverse_reverse, e] at h2
        refine h2.symm.trans ?_
        simp
      have hfirst : ∀ c, (b.dropWhile (· = '.')).head? = some c → c ≠ '.' := by
        intro c hc
        have := List.head?_dropWhile_not (fun c => decide (c = '.')) b
        rw [hc] at this
        simpa using this
      cases hu : u.reverse with
      | nil =>
        rw [hu] at hdec
        exact absurd rfl (hfirst '.' (by rw [hdec]; rfl))
      | cons c w =>
        rw [hu] at hdec
        exact ⟨c, by simp, hfirst c (by rw [hdec]; rfl)⟩
  obtain ⟨c, hc, hcd⟩ := hdot
  refine ⟨?_, ?_, ?_, fun h => hb.2.2.2 (hsub _ h)⟩
  · intro e; rw [e] at hc; cases hc
  · intro e; rw [e] at hc; simp at hc; exact hcd hc
  · intro e; rw [e] at hc; simp at hc; exact hcd hc

theorem splitBase_noext {b : Text} (he : (splitBase b).2 = []) : (splitBase b).1 = b := by
  unfold splitBase at he ⊢
  simp only at he ⊢
  split at he
  · rfl
  · cases he

theorem name_main : Name "__main__".toList := by unfold Name; decide

/-- The module of a path that ends with a name. -/
theorem absModulePath_name (cwd d b : Text) (hcwd : cwd.head? = some '/') (hd : d = [] ∨ d.getLast? = some '/') (hb : Name b) :
    absModulePath cwd (d ++ b) = render (locDir cwd d).1
      (if (splitBase b).2 = [] then (locDir cwd d).2 ++ [b, "__main__".toList] else (locDir cwd d).2 ++ [(splitBase b).1]) := by
  obtain ⟨e1, e2⟩ := base_dir d b hd hb.2.2.2
  unfold absModulePath splitext
  rw [e1, e2]
  by_cases he : (splitBase b).2 = []
  · simp only [he, if_true]
    rw [splitBase_noext he]
    have hj : join (d ++ b) "__main__".toList = (d ++ b ++ ['/']) ++ "__main__".toList := by
      have hne : d ++ b ≠ [] := by simp [hb.1]
      have hlast : (d ++ b).getLast? ≠ some '/' := by
        rw [List.getLast?_append]
        cases hl : b.getLast? with
        | none => exact absurd (List.getLast?_eq_none_iff.1 hl) hb.1
        | some y =>
          simp only [Option.some_or, ne_eq, Option.some.injEq]
          rintro rfl
          exact hb.2.2.2 (List.mem_of_getLast? hl)
      rw [join, if_neg (by decide), if_neg (fun h => h.elim hne hlast)]
      simp
    rw [hj, abspath_name cwd (d ++ b ++ ['/']) _ hcwd (.inr (by simp)) name_main]
    obtain ⟨x, hl, hh, h1, h2⟩ := joined cwd d b hcwd hd hb
    have hx : (if (d ++ b ++ ['/']).head? = some '/' then d ++ b ++ ['/']
        else if cwd.getLast? = some '/' then cwd ++ (d ++ b ++ ['/']) else cwd ++ '/' :: (d ++ b ++ ['/'])) = x ++ b ++ ['/'] := by
      have hhead : (d ++ b ++ ['/']).head? = (d ++ b).head? := head_append_cons _ _ _ (by simp [hb.1])
      rw [hhead, ← h2]
      by_cases hs : (d ++ b).head? = some '/'
      · rw [if_pos hs, if_pos hs]
      · rw [if_neg hs, if_neg hs, join, if_neg hs]
        have hcn : cwd ≠ [] := by rintro rfl; cases hcwd
        by_cases hl : cwd.getLast? = some '/'
        · rw [if_pos hl, if_pos (.inr hl)]; simp
        · rw [if_neg hl, if_neg (fun h => h.elim hcn hl)]; simp
    have hloc : locDir cwd (d ++ b ++ ['/']) = ((locDir cwd d).1, (locDir cwd d).2 ++ [b]) := by
      unfold locDir
      simp only [hx, h1]
      have hsl : slashes (x ++ b ++ ['/'] ++ ['a']) = slashes (x ++ ['a']) := by
        have hf : ∃ y b', b = y :: b' ∧ y ≠ '/' := by
          cases b with
          | nil => exact absurd rfl hb.1
          | cons y b => exact ⟨y, b, rfl, fun e => hb.2.2.2 (by rw [e]; simp)⟩
        obtain ⟨y, b', rfl, hy⟩ := hf
        rw [slashes_last x hl ['a'] (y :: b') name_a hb]
        match x, hl with
        | [], hl => cases hl
        | [a], hl => simp at hl; subst hl; simp [slashes, hy]
        | [a, a'], hl =>
          simp at hl; subst hl
          by_cases ha : a = '/'
          · subst ha; simp [slashes, hy]
          · simp [slashes, ha]
        | a :: a' :: a'' :: x, _ =>
          simp only [List.cons_append, slashes_three]
      rw [hsl]
      have : (x ++ b ++ ['/']).dropLast = x ++ b := by simp
      rw [this]
      have hsp : split (x ++ b) = split x.dropLast ++ [b] := by
        conv => lhs; rw [snoc_of_getLast hl]
        rw [List.append_assoc]
        show split (x.dropLast ++ '/' :: b) = _
        rw [split_slash, split_noSlash hb.2.2.2]
      rw [hsp, normComps_append _ _ hb]
    rw [hloc]
    simp
  · simp only [he, if_false]
    exact abspath_name cwd d _ hcwd hd (splitBase_name hb he)

end Pulumi.Exec
