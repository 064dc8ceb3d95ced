import Verif.Exec.TraceLemmas

/-!
# The stack trace of a failed program: theorems
-/

namespace Pulumi.Exec

open Json (Text)

/-! ## Helpers -/

theorem lastFrames_drop (tb : List Text) (i : Nat) (h : i ≤ tb.length) : lastFrames (tb.length - i) tb = tb.drop i := by
  unfold lastFrames
  congr 1
  omega

theorem userTrace_first {cwd up : Text} (pre rest : List Text) (f : Text) (hpre : ∀ g ∈ pre, absModulePath cwd up ≠ absModulePath cwd g)
    (hf : absModulePath cwd up = absModulePath cwd f) : userTrace cwd up (pre ++ f :: rest) = f :: rest := by
  have : (pre ++ f :: rest).findIdx? (fun f => absModulePath cwd up = absModulePath cwd f) = some pre.length := by
    rw [List.findIdx?_append]
    have h1 : pre.findIdx? (fun f => decide (absModulePath cwd up = absModulePath cwd f)) = none := by
      rw [List.findIdx?_eq_none_iff]
      intro g hg
      simpa using hpre g hg
    rw [h1, List.findIdx?_cons]
    simp [hf]
  unfold userTrace
  rw [this]
  simp only
  rw [lastFrames_drop _ _ (by simp)]
  simp

theorem userTrace_keeps {cwd up : Text} (pre rest : List Text) (f : Text) (hf : absModulePath cwd up = absModulePath cwd f) :
    f :: rest <:+ userTrace cwd up (pre ++ f :: rest) := by
  unfold userTrace
  cases h : (pre ++ f :: rest).findIdx? fun f => decide (absModulePath cwd up = absModulePath cwd f) with
  | none => exact ⟨pre, rfl⟩
  | some i =>
    simp only
    have hi : i ≤ pre.length := by
      have h1 := List.findIdx?_eq_some_iff_getElem.1 h
      obtain ⟨hlt, _, hall⟩ := h1
      by_cases hle : i ≤ pre.length
      · exact hle
      · have := hall pre.length (by omega)
        simp [hf] at this
    rw [lastFrames_drop _ _ (by simp; omega), List.drop_append_of_le_length hi]
    exact ⟨pre.drop i, rfl⟩

theorem absModulePath_abspath (cwd d b : Text) (hcwd : cwd.head? = some '/') (hd : d = [] ∨ d.getLast? = some '/') (hb : Name b) :
    absModulePath cwd (abspath cwd (d ++ b)) = absModulePath cwd (d ++ b) := by
  obtain ⟨hn, hcs⟩ := locDir_ok cwd d hcwd hd
  rw [abspath_name cwd d b hcwd hd hb, absModulePath_name cwd d b hcwd hd hb]
  obtain ⟨d', h1, h2, h3⟩ : ∃ d' : Text, render (locDir cwd d).1 ((locDir cwd d).2 ++ [b]) = d' ++ b ∧ d'.getLast? = some '/' ∧
      locDir cwd d' = locDir cwd d := by
    generalize (locDir cwd d) = L at hn hcs
    obtain ⟨n, cs⟩ := L
    simp only at hn hcs ⊢
    have hr : render n (cs ++ [b]) = (render n cs ++ if cs = [] then [] else ['/']) ++ b := by
      unfold render
      by_cases hc : cs = []
      · subst hc; simp [joinSlash]
      · rw [joinSlash_append cs b hc, if_neg hc]; simp
    have hlast : (render n cs ++ if cs = [] then [] else ['/']).getLast? = some '/' := by
      by_cases hc : cs = []
      · subst hc
        rcases hn with rfl | rfl <;> rfl
      · rw [if_neg hc]; simp
    refine ⟨_, hr, hlast, ?_⟩
    have hhead : (render n cs ++ if cs = [] then [] else ['/']).head? = some '/' := by
      rcases hn with rfl | rfl <;> rfl
    have ha : render n (cs ++ [['a']]) = (render n cs ++ if cs = [] then [] else ['/']) ++ ['a'] := by
      unfold render
      by_cases hc : cs = []
      · subst hc; simp [joinSlash]
      · rw [joinSlash_append cs ['a'] hc, if_neg hc]; simp
    unfold locDir
    simp only [hhead, if_true]
    have hnames : ∀ c ∈ cs ++ [['a']], Name c := by
      intro c hc
      rcases List.mem_append.1 hc with hc | hc
      · exact hcs c hc
      · simp at hc; subst hc; exact name_a
    rw [← ha, slashes_render n hn _ hnames]
    have hcomps := normComps_render n n hn (cs ++ [['a']]) hnames
    rw [ha] at hcomps
    have hsp : split ((render n cs ++ if cs = [] then [] else ['/']) ++ ['a']) =
        split (render n cs ++ if cs = [] then [] else ['/']).dropLast ++ [['a']] := by
      conv => lhs; rw [snoc_of_getLast hlast]
      rw [List.append_assoc]
      show split (_ ++ '/' :: ['a']) = _
      rw [split_slash]
      rfl
    rw [hsp, normComps_append _ _ name_a] at hcomps
    rw [List.append_cancel_right hcomps]
  rw [h1, absModulePath_name cwd d' b hcwd (.inr h2) hb, h3]

theorem render_inj (n : Nat) (hn : n = 1 ∨ n = 2) (cs cs' : List Text) (h : ∀ c ∈ cs, Name c) (h' : ∀ c ∈ cs', Name c) (m : Nat)
    (hm : m = 1 ∨ m = 2) (e : render n cs = render m cs') : n = m ∧ cs = cs' := by
  have h1 := congrArg slashes e
  rw [slashes_render n hn cs h, slashes_render m hm cs' h'] at h1
  have h2 : normComps 1 (split (render n cs)) = normComps 1 (split (render m cs')) := by rw [e]
  rw [normComps_render n 1 hn cs h, normComps_render m 1 hm cs' h'] at h2
  exact ⟨h1, h2⟩

theorem modName (b : Text) (hb : Name b) : Name (if (splitBase b).2 = [] then "__main__".toList else (splitBase b).1) := by
  split
  · exact name_main
  · next he => exact splitBase_name hb he

/-- The last component of the module of a path. -/
theorem absModulePath_last (cwd d b : Text) (hcwd : cwd.head? = some '/') (hd : d = [] ∨ d.getLast? = some '/') (hb : Name b) :
    ∃ n cs, (n = 1 ∨ n = 2) ∧ (∀ c ∈ cs, Name c) ∧ absModulePath cwd (d ++ b) =
      render n (cs ++ [if (splitBase b).2 = [] then "__main__".toList else (splitBase b).1]) := by
  obtain ⟨hn, hcs⟩ := locDir_ok cwd d hcwd hd
  rw [absModulePath_name cwd d b hcwd hd hb]
  by_cases he : (splitBase b).2 = []
  · refine ⟨_, (locDir cwd d).2 ++ [b], hn, ?_, by simp [he]⟩
    intro c hc
    rcases List.mem_append.1 hc with hc | hc
    · exact hcs c hc
    · simp at hc; subst hc; exact hb
  · exact ⟨_, (locDir cwd d).2, hn, hcs, by simp [he]⟩

/-! ## What is expected -/

/-- A path that ends with a name: the directory before it, the name. -/
structure FilePath where
  dir : Text
  name : Text
  dir_ok : dir = [] ∨ dir.getLast? = some '/'
  name_ok : Name name

def FilePath.text (p : FilePath) : Text := p.dir ++ p.name

/-- The name of a module: the name of its file without the extension; a file without extension counts as a directory. -/
def FilePath.module (p : FilePath) : Text :=
  if (splitBase p.name).2 = [] then "__main__".toList else (splitBase p.name).1

/-! ## The properties -/

/-- C122: the innermost frames are always shown: what is shown is the end of the trace, and not empty if the trace is not. -/
theorem shown_suffix (cwd program : Text) (tb : List Text) :
    shownTrace cwd program tb <:+ tb ∧ (tb ≠ [] → shownTrace cwd program tb ≠ []) := by
  unfold shownTrace userTrace
  cases h : tb.findIdx? fun f => decide (absModulePath cwd (abspath cwd program) = absModulePath cwd f) with
  | none => exact ⟨List.suffix_refl _, fun h => h⟩
  | some i =>
    obtain ⟨hlt, _⟩ := List.findIdx?_eq_some_iff_getElem.1 h
    simp only
    rw [lastFrames_drop _ _ (by omega)]
    refine ⟨List.drop_suffix _ _, fun _ e => ?_⟩
    have := List.drop_eq_nil_iff.1 e
    omega

/-- C122: no frame of the program is lost: if a file is run, all frames from its first one on are shown. -/
theorem file_frames_kept (cwd : Text) (hcwd : cwd.head? = some '/') (p : FilePath) (pre rest : List Text) :
    p.text :: rest <:+ shownTrace cwd p.text (pre ++ p.text :: rest) :=
  userTrace_keeps pre rest p.text (absModulePath_abspath cwd p.dir p.name hcwd p.dir_ok p.name_ok)

/-- C122: and if no frame before it is of a module of the same name, the trace begins with the program. -/
theorem file_frames_only (cwd : Text) (hcwd : cwd.head? = some '/') (p : FilePath) (pre : List FilePath) (rest : List Text)
    (hpre : ∀ q ∈ pre, q.module ≠ p.module) :
    shownTrace cwd p.text (pre.map FilePath.text ++ p.text :: rest) = p.text :: rest := by
  refine userTrace_first _ rest p.text ?_ (absModulePath_abspath cwd p.dir p.name hcwd p.dir_ok p.name_ok)
  intro g hg
  obtain ⟨q, hq, rfl⟩ := List.mem_map.1 hg
  have h1 := absModulePath_abspath cwd p.dir p.name hcwd p.dir_ok p.name_ok
  obtain ⟨n, cs, hn, hcs, e⟩ := absModulePath_last cwd p.dir p.name hcwd p.dir_ok p.name_ok
  obtain ⟨m, ds, hm, hds, e'⟩ := absModulePath_last cwd q.dir q.name hcwd q.dir_ok q.name_ok
  unfold FilePath.text
  rw [h1, e, e']
  intro h
  have hall : ∀ (l : List Text) (x : Text), (∀ c ∈ l, Name c) → Name x → ∀ c ∈ l ++ [x], Name c := by
    intro l x hl hx c hc
    rcases List.mem_append.1 hc with hc | hc
    · exact hl c hc
    · simp at hc; subst hc; exact hx
  have := (render_inj n hn _ _ (hall _ _ hcs (modName _ p.name_ok)) (hall _ _ hds (modName _ q.name_ok)) m hm h).2
  exact hpre q hq (List.cons.inj (List.append_inj_right' this rfl)).1.symm

/-- The absolute path of a program's directory and the file that is run in it, for a directory that ends with a name. -/
theorem main_module (cwd : Text) (hcwd : cwd.head? = some '/') (p : FilePath) :
    absModulePath cwd (mainFile cwd p.text) =
      render (locDir cwd p.dir).1 ((locDir cwd p.dir).2 ++ [p.name, "__main__".toList]) := by
  obtain ⟨x, hl, hh, h1, h2⟩ := joined cwd p.dir p.name hcwd p.dir_ok p.name_ok
  unfold mainFile FilePath.text
  rw [h2]
  have hb := p.name_ok
  have hne : x ++ p.name ≠ [] := by simp [hb.1]
  have hlast : (x ++ p.name).getLast? ≠ some '/' := by
    rw [List.getLast?_append]
    cases hl : p.name.getLast? with
    | none => exact absurd (List.getLast?_eq_none_iff.1 hl) hb.1
    | some y =>
      simp only [Option.some_or, ne_eq, Option.some.injEq]
      rintro rfl
      exact hb.2.2.2 (List.mem_of_getLast? hl)
  have hj : join (x ++ p.name) "__main__.py".toList = (x ++ p.name ++ ['/']) ++ "__main__.py".toList := by
    rw [join, if_neg (by decide), if_neg (fun h => h.elim hne hlast)]; simp
  have hnm : Name "__main__.py".toList := by unfold Name; decide
  have hxb : (x ++ p.name ++ ['/']).head? = some '/' := by
    cases x with
    | nil => cases hh
    | cons c x => simpa using hh
  rw [hj, absModulePath_name cwd (x ++ p.name ++ ['/']) _ hcwd (.inr (by simp)) hnm]
  have hs : splitBase "__main__.py".toList = ("__main__".toList, ".py".toList) := by decide
  have hloc : locDir cwd (x ++ p.name ++ ['/']) = ((locDir cwd p.dir).1, (locDir cwd p.dir).2 ++ [p.name]) := by
    unfold locDir
    simp only [hxb, if_true, h1]
    have hsl : slashes (x ++ p.name ++ ['/'] ++ ['a']) = slashes (x ++ ['a']) := by
      have hf : ∃ y b', p.name = y :: b' ∧ y ≠ '/' := by
        cases hp : p.name with
        | nil => exact absurd hp hb.1
        | cons y b => exact ⟨y, b, rfl, fun e => hb.2.2.2 (by rw [hp, e]; simp)⟩
      obtain ⟨y, b', hyb, hy⟩ := hf
      rw [slashes_last x hl ['a'] p.name name_a hb, hyb]
      match x, hl with
      | [], hl => cases hl
      | [a], hl => simp at hl; subst hl; simp [slashes, hy]
      | [a, a'], hl =>
        simp at hl; subst hl
        by_cases ha : a = '/'
        · subst ha; simp [slashes, hy]
        · simp [slashes, ha]
      | a :: a' :: a'' :: x, _ => simp only [List.cons_append, slashes_three]
    rw [hsl]
    have : (x ++ p.name ++ ['/']).dropLast = x ++ p.name := by simp
    rw [this]
    have hsp : split (x ++ p.name) = split x.dropLast ++ [p.name] := by
      conv => lhs; rw [snoc_of_getLast hl]
      rw [List.append_assoc]
      show split (x.dropLast ++ '/' :: p.name) = _
      rw [split_slash, split_noSlash hb.2.2.2]
    rw [hsp, normComps_append _ _ hb]
  rw [hloc, hs]
  simp

/-- C122 (what holds): if a directory is run, and its name has no dot (but at the beginning), no frame of the program is lost. -/
theorem directory_frames_kept_partial (cwd : Text) (hcwd : cwd.head? = some '/') (p : FilePath) (hp : (splitBase p.name).2 = [])
    (pre rest : List Text) :
    mainFile cwd p.text :: rest <:+ shownTrace cwd p.text (pre ++ mainFile cwd p.text :: rest) := by
  refine userTrace_keeps pre rest _ ?_
  unfold FilePath.text
  rw [absModulePath_abspath cwd p.dir p.name hcwd p.dir_ok p.name_ok, absModulePath_name cwd p.dir p.name hcwd p.dir_ok p.name_ok,
    if_pos hp]
  exact (main_module cwd hcwd p).symm

/-- C122, the code's failing: if a directory is run whose name has an extension, the program is not recognised: the trace is
shown with all frames of the executor, of `runpy` and of the SDK before it, unless one of them has the name of the directory. -/
theorem dotted_directory_full (cwd : Text) (hcwd : cwd.head? = some '/') (p : FilePath) (hp : (splitBase p.name).2 ≠ [])
    (pre rest : List FilePath) (hframes : ∀ q ∈ pre ++ rest, q.module ≠ p.module) :
    shownTrace cwd p.text (pre.map FilePath.text ++ mainFile cwd p.text :: rest.map FilePath.text) =
      pre.map FilePath.text ++ mainFile cwd p.text :: rest.map FilePath.text := by
  have h1 := absModulePath_abspath cwd p.dir p.name hcwd p.dir_ok p.name_ok
  obtain ⟨n, cs, hn, hcs, e⟩ := absModulePath_last cwd p.dir p.name hcwd p.dir_ok p.name_ok
  have hall : ∀ (l : List Text) (x : Text), (∀ c ∈ l, Name c) → Name x → ∀ c ∈ l ++ [x], Name c := by
    intro l x hl hx c hc
    rcases List.mem_append.1 hc with hc | hc
    · exact hl c hc
    · simp at hc; subst hc; exact hx
  have hno : ∀ q ∈ pre ++ rest, absModulePath cwd (abspath cwd (p.dir ++ p.name)) ≠ absModulePath cwd (q.dir ++ q.name) := by
    intro q hq h
    obtain ⟨m, ds, hm, hds, e'⟩ := absModulePath_last cwd q.dir q.name hcwd q.dir_ok q.name_ok
    rw [h1, e, e'] at h
    have := (render_inj n hn _ _ (hall _ _ hcs (modName _ p.name_ok)) (hall _ _ hds (modName _ q.name_ok)) m hm h).2
    exact hframes q hq (List.cons.inj (List.append_inj_right' this rfl)).1.symm
  have hmain : absModulePath cwd (abspath cwd (p.dir ++ p.name)) ≠ absModulePath cwd (mainFile cwd p.text) := by
    rw [main_module cwd hcwd p, h1, absModulePath_name cwd p.dir p.name hcwd p.dir_ok p.name_ok, if_neg hp]
    intro h
    obtain ⟨hn', hcs'⟩ := locDir_ok cwd p.dir hcwd p.dir_ok
    have h2 := (render_inj _ hn' _ ((locDir cwd p.dir).2 ++ [p.name, "__main__".toList])
      (hall _ _ hcs' (splitBase_name p.name_ok hp)) (by
      intro c hc
      rcases List.mem_append.1 hc with hc | hc
      · exact hcs' c hc
      · simp only [List.mem_cons, List.not_mem_nil, or_false] at hc
        rcases hc with rfl | rfl
        · exact p.name_ok
        · exact name_main) _ hn' h).2
    have h3 := congrArg List.length h2
    simp at h3
  unfold shownTrace userTrace FilePath.text
  have : List.findIdx? (fun f => decide (absModulePath cwd (abspath cwd (p.dir ++ p.name)) = absModulePath cwd f))
      (pre.map (fun q => q.dir ++ q.name) ++ mainFile cwd (p.dir ++ p.name) :: rest.map (fun q => q.dir ++ q.name)) = none := by
    rw [List.findIdx?_eq_none_iff]
    intro g hg
    simp only [List.mem_append, List.mem_cons, List.mem_map] at hg
    simp only [decide_eq_false_iff_not]
    rcases hg with ⟨q, hq, rfl⟩ | rfl | ⟨q, hq, rfl⟩
    · exact hno q (List.mem_append.2 (.inl hq))
    · exact hmain
    · exact hno q (List.mem_append.2 (.inr hq))
  rw [this]

/-! ## Examples -/

/-- A program that is a file. -/
example : shownTrace "/home/me".toList "./site/app.py".toList
    ["/usr/bin/pulumi-language-python-exec".toList, "<frozen runpy>".toList, "./site/app.py".toList, "/home/me/site/lib.py".toList] =
    ["./site/app.py".toList, "/home/me/site/lib.py".toList] := by decide

/-- A program that is the directory in which it runs. -/
example : shownTrace "/home/me/app".toList ".".toList
    ["/usr/bin/pulumi-language-python-exec".toList, "<frozen runpy>".toList, "/home/me/app/./__main__.py".toList] =
    ["/home/me/app/./__main__.py".toList] := by decide

/-- With a dot in its name, it is not recognised. -/
example : shownTrace "/home/me/app.v2".toList ".".toList
    ["/usr/bin/pulumi-language-python-exec".toList, "<frozen runpy>".toList, "/home/me/app.v2/./__main__.py".toList] =
    ["/usr/bin/pulumi-language-python-exec".toList, "<frozen runpy>".toList, "/home/me/app.v2/./__main__.py".toList] := by decide

def exampleFile : FilePath := ⟨"/home/me/".toList, "app.v2".toList, by decide, by unfold Name; decide⟩
def exampleExec : FilePath := ⟨"/usr/bin/".toList, "pulumi-language-python-exec".toList, by decide, by unfold Name; decide⟩

example : (splitBase exampleFile.name).2 ≠ [] ∧ exampleExec.module ≠ exampleFile.module := by
  decide

end Pulumi.Exec
