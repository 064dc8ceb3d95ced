import Verif.Filestate.Spec
import Verif.ConfigMap.Lemmas
/-! # Lemmas about programs on a bucket -/
namespace Pulumi.Filestate

open ConfigMap (put drop find find_put_same find_put_other find_drop_same find_drop_other)

variable {C S α β : Type}

/-! ## Calls -/

/-- The files a call may change -/
def Op.touches : Op C → File → Prop
  | .write f _, g => g = f
  | .copy d _, g => g = d
  | .delete f, g => g = f
  | _, _ => False

theorem perform_frame (now : Nat) (b : Bucket C) (o : Op C) (f : File) (h : ¬ o.touches f) : (perform now b o).2.get f = b.get f := by
  cases o with
  | read g => simp only [perform]; split <;> rfl
  | write g c => exact find_put_other h _ _
  | copy d s =>
    simp only [perform]
    split
    · exact find_put_other h _ _
    · rfl
  | delete g =>
    simp only [perform]
    split
    · exact find_drop_other h _
    · rfl
  | «exists» g => rfl
  | listState s => rfl
  | listHistory s => rfl

theorem act_frame {φ : Bool} {o : Op C} {b b' : Bucket C} {r : Res C} (h : Act φ o b r b') (f : File) (hf : ¬ o.touches f) :
    b'.get f = b.get f := by
  cases h with
  | ok now => exact perform_frame now b o f hf
  | fail => rfl
  | late now => exact perform_frame now b o f hf

theorem act_write {φ : Bool} {f : File} {c : C} {b b' : Bucket C} {r : Res C} (h : Act φ (.write f c) b r b') :
    (b'.get f = b.get f ∧ r = .err) ∨ ∃ now, b.clock ≤ now ∧ b'.get f = some ⟨c, now⟩ := by
  cases h with
  | ok now hn => exact .inr ⟨now, hn, find_put_same _ _ _⟩
  | fail => exact .inl ⟨rfl, rfl⟩
  | late now _ hn => exact .inr ⟨now, hn, find_put_same _ _ _⟩

theorem act_copy {φ : Bool} {d s : File} {b b' : Bucket C} {r : Res C} (h : Act φ (.copy d s) b r b') :
    (b'.get d = b.get d ∧ (r = .ok → False) ∧ (φ = false → b.get s = none)) ∨
      ∃ o now, b.get s = some o ∧ b'.get d = some ⟨o.content, now⟩ := by
  have key : ∀ now, (b.get s = none ∧ perform now b (.copy d s) = (.notFound, b)) ∨
      ∃ o, b.get s = some o ∧ (perform now b (.copy d s)).2.get d = some ⟨o.content, now⟩ := by
    intro now
    simp only [perform]
    cases hs : b.get s with
    | none => exact .inl ⟨rfl, rfl⟩
    | some o => exact .inr ⟨o, rfl, find_put_same _ _ _⟩
  cases h with
  | ok now =>
    rcases key now with ⟨h1, h2⟩ | ⟨o, h1, h2⟩
    · rw [h2]
      exact .inl ⟨rfl, fun h => (by cases h), fun _ => h1⟩
    · exact .inr ⟨o, now, h1, h2⟩
  | fail hφ => exact .inl ⟨rfl, fun h => (by cases h), fun h => by rw [hφ] at h; cases h⟩
  | late now hφ =>
    rcases key now with ⟨h1, h2⟩ | ⟨o, h1, h2⟩
    · rw [h2]
      exact .inl ⟨rfl, fun h => (by cases h), fun h => by rw [hφ] at h; cases h⟩
    · exact .inr ⟨o, now, h1, h2⟩

theorem act_delete {φ : Bool} {f : File} {b b' : Bucket C} {r : Res C} (h : Act φ (.delete f) b r b') :
    (b'.get f = b.get f ∧ r = .err ∧ φ = true) ∨ b'.get f = none := by
  have key : ∀ now, (perform now b (.delete f)).2.get f = none := by
    intro now
    simp only [perform]
    cases hs : b.get f with
    | none => exact hs
    | some o => exact find_drop_same _ _
  cases h with
  | ok now => exact .inr (key now)
  | fail hφ => exact .inl ⟨rfl, rfl, hφ⟩
  | late now => exact .inr (key now)

theorem act_read {φ : Bool} {f : File} {b b' : Bucket C} {r : Res C} (h : Act φ (.read f) b r b') :
    b' = b ∧ ((r = .err ∧ φ = true) ∨ (r = .notFound ∧ b.content f = none) ∨ ∃ c, r = .content c ∧ b.content f = some c) := by
  unfold Bucket.content
  have key : ∀ now, (perform now b (.read f) = (.notFound, b) ∧ b.get f = none) ∨
      ∃ o, perform now b (.read f) = (.content o.content, b) ∧ b.get f = some o := by
    intro now
    simp only [perform]
    cases hs : b.get f with
    | none => exact .inl ⟨rfl, rfl⟩
    | some o => exact .inr ⟨o, rfl, rfl⟩
  cases h with
  | ok now =>
    rcases key now with ⟨h1, h2⟩ | ⟨o, h1, h2⟩
    · rw [h1, h2]; exact ⟨rfl, .inr (.inl ⟨rfl, rfl⟩)⟩
    · rw [h1, h2]; exact ⟨rfl, .inr (.inr ⟨_, rfl, rfl⟩)⟩
  | fail hφ => exact ⟨rfl, .inl ⟨rfl, hφ⟩⟩
  | late now hφ =>
    rcases key now with ⟨h1, h2⟩ | ⟨o, h1, h2⟩
    · rw [h1]; exact ⟨rfl, .inl ⟨rfl, hφ⟩⟩
    · rw [h1]; exact ⟨rfl, .inl ⟨rfl, hφ⟩⟩

theorem act_exists {φ : Bool} {f : File} {b b' : Bucket C} {r : Res C} (h : Act φ (.exists f) b r b') :
    b' = b ∧ ((r = .err ∧ φ = true) ∨ r = .is (b.get f).isSome) := by
  cases h with
  | ok now => exact ⟨rfl, .inr rfl⟩
  | fail hφ => exact ⟨rfl, .inl ⟨rfl, hφ⟩⟩
  | late now hφ => exact ⟨rfl, .inl ⟨rfl, hφ⟩⟩

theorem act_listState {φ : Bool} {s : String} {b b' : Bucket C} {r : Res C} (h : Act φ (.listState s) b r b') :
    b' = b ∧ ((r = .err ∧ φ = true) ∨
      r = .found ((b.get (.state s false)).map (·.time)) ((b.get (.state s true)).map (·.time))) := by
  cases h with
  | ok now => exact ⟨rfl, .inr rfl⟩
  | fail hφ => exact ⟨rfl, .inl ⟨rfl, hφ⟩⟩
  | late now hφ => exact ⟨rfl, .inl ⟨rfl, hφ⟩⟩

theorem act_listHistory {φ : Bool} {s : String} {b b' : Bucket C} {r : Res C} (h : Act φ (.listHistory s) b r b') :
    b' = b ∧ ((r = .err ∧ φ = true) ∨ r = .files ((b.files.map (·.1)).filter (File.inHistory s))) := by
  cases h with
  | ok now => exact ⟨rfl, .inr rfl⟩
  | fail hφ => exact ⟨rfl, .inl ⟨rfl, hφ⟩⟩
  | late now hφ => exact ⟨rfl, .inl ⟨rfl, hφ⟩⟩

/-! ## Programs -/

/-- At every point of every run of the program the bucket satisfies `I`, and at its end it and the result satisfy `Q`. -/
def Always (φ : Bool) (I : Bucket C → Prop) : Prog C α → Bucket C → (α → Bucket C → Prop) → Prop
  | .done a, b, Q => I b ∧ Q a b
  | .op o k, b, Q => I b ∧ ∀ r b', Act φ o b r b' → Always φ I (k r) b' Q

theorem always_reach {φ : Bool} {I : Bucket C → Prop} {p p' : Prog C α} {b b' : Bucket C} {Q : α → Bucket C → Prop}
    (h : Always φ I p b Q) (hr : Reach φ p b p' b') : I b' ∧ ∀ a, p' = .done a → Q a b' := by
  induction hr with
  | refl p b =>
    cases p with
    | done a =>
      refine ⟨h.1, fun a' e => ?_⟩
      cases e
      exact h.2
    | op o k => exact ⟨h.1, fun a e => (by cases e)⟩
  | step ha _ ih => exact ih (h.2 _ _ ha)

theorem always_inv {φ : Bool} {I : Bucket C → Prop} {p : Prog C α} {b : Bucket C} {Q : α → Bucket C → Prop}
    (h : Always φ I p b Q) : I b := by
  cases p <;> exact h.1

theorem always_mono {φ : Bool} {I J : Bucket C → Prop} {p : Prog C α} {b : Bucket C} {Q R : α → Bucket C → Prop}
    (h : Always φ I p b Q) (hI : ∀ b, I b → J b) (hQ : ∀ a b, I b → Q a b → R a b) : Always φ J p b R := by
  induction p generalizing b with
  | done a => exact ⟨hI _ h.1, hQ _ _ h.1 h.2⟩
  | op o k ih => exact ⟨hI _ h.1, fun r b' ha => ih r (h.2 r b' ha)⟩

theorem always_bind {φ : Bool} {I : Bucket C → Prop} {p : Prog C α} {f : α → Prog C β} {b : Bucket C} {Q : β → Bucket C → Prop}
    (h : Always φ I p b fun a b' => Always φ I (f a) b' Q) : Always φ I (p.bind f) b Q := by
  induction p generalizing b with
  | done a => exact h.2
  | op o k ih => exact ⟨h.1, fun r b' ha => ih r (h.2 r b' ha)⟩

theorem always_bind' {φ : Bool} {I : Bucket C → Prop} {p : Prog C α} {f : α → Prog C β} {b : Bucket C} {Q : β → Bucket C → Prop}
    (h : Always φ I p b fun a b' => Always φ I (f a) b' Q) : Always φ I (p >>= f) b Q := always_bind h

theorem always_call {φ : Bool} {I : Bucket C → Prop} {o : Op C} {f : Res C → Prog C β} {b : Bucket C} {Q : β → Bucket C → Prop}
    (hI : I b) (h : ∀ r b', Act φ o b r b' → Always φ I (f r) b' Q) : Always φ I (call o >>= f) b Q := ⟨hI, h⟩

theorem always_pure {φ : Bool} {I : Bucket C → Prop} {a : α} {b : Bucket C} {Q : α → Bucket C → Prop} (hI : I b) (h : Q a b) :
    Always φ I (pure a : Prog C α) b Q := ⟨hI, h⟩

theorem always_and {φ : Bool} {I J : Bucket C → Prop} {p : Prog C α} {b : Bucket C} {Q R : α → Bucket C → Prop}
    (h : Always φ I p b Q) (h' : Always φ J p b R) : Always φ (fun b => I b ∧ J b) p b (fun a b => Q a b ∧ R a b) := by
  induction p generalizing b with
  | done a => exact ⟨⟨h.1, h'.1⟩, h.2, h'.2⟩
  | op o k ih => exact ⟨⟨h.1, h'.1⟩, fun r b' ha => ih r (h.2 r b' ha) (h'.2 r b' ha)⟩

/-! ## Reading -/

theorem current_only {gz : Bool} {s : String} {b : Bucket C} (h : Only gz s b) : b.current s = b.content (.state s gz) := by
  unfold Only at h
  unfold Bucket.current Bucket.content
  cases gz with
  | false =>
    simp only [Bool.not_false] at h
    rw [h]
    cases b.get (.state s false) <;> rfl
  | true =>
    simp only [Bool.not_true] at h
    rw [h]
    cases b.get (.state s true) <;> rfl

/-- Reading changes nothing; the file is the one with the current state, or the plain one if listing fails. -/
theorem always_stackPath {φ : Bool} {I : Bucket C → Prop} {s : String} {b : Bucket C} {Q : File → Bucket C → Prop} (hI : I b)
    (h : ∀ gz, (b.content (.state s gz) = b.current s ∨ (φ = true ∧ gz = false)) → Q (.state s gz) b) :
    Always φ I (stackPath s) b Q := by
  unfold stackPath
  refine always_call hI fun r b' ha => ?_
  obtain ⟨rfl, hr⟩ := act_listState ha
  rcases hr with ⟨rfl, hφ⟩ | rfl
  · exact always_pure hI (h false (.inr ⟨hφ, rfl⟩))
  · unfold Bucket.content Bucket.current at h
    cases h1 : b'.get (.state s false) with
    | none =>
      rw [h1] at h
      cases h2 : b'.get (.state s true) with
      | none =>
        rw [h2] at h
        exact always_pure hI (h false (.inl (by rw [h1]; rfl)))
      | some g =>
        rw [h2] at h
        exact always_pure hI (h true (.inl (by rw [h2]; rfl)))
    | some p =>
      rw [h1] at h
      cases h2 : b'.get (.state s true) with
      | none =>
        rw [h2] at h
        exact always_pure hI (h false (.inl (by rw [h1]; rfl)))
      | some g =>
        rw [h2] at h
        simp only at h
        refine always_pure hI (h _ (.inl ?_))
        by_cases hp : p.time > g.time
        · simp [hp, h1]
        · simp [hp, h2]

/-- Reading a stack changes nothing. What is read is the current state, or the plain one if listing fails. -/
theorem always_getStack {φ : Bool} (K : Coder C S) {I : Bucket C → Prop} {s : String} {b : Bucket C} {Q : Got S → Bucket C → Prop}
    (hI : I b)
    (hok : ∀ c st, K.load c = some st → (b.current s = some c ∨ (φ = true ∧ b.content (.state s false) = some c)) → Q (.ok st) b)
    (hnf : (b.current s = none ∨ (φ = true ∧ b.content (.state s false) = none)) → Q .notFound b)
    (herr : (φ = true ∨ ∃ c, b.current s = some c ∧ K.load c = none) → Q .err b) :
    Always φ I (getStack K s) b Q := by
  unfold getStack
  refine always_bind' (always_stackPath hI fun gz hgz => ?_)
  refine always_call hI fun r b' ha => ?_
  obtain ⟨rfl, ⟨rfl, hφ⟩ | ⟨rfl, hc⟩ | ⟨c, rfl, hc⟩⟩ := act_read ha
  · exact always_pure hI (herr (.inl hφ))
  · refine always_pure hI (hnf ?_)
    rcases hgz with h | ⟨h, rfl⟩
    · exact .inl (h ▸ hc)
    · exact .inr ⟨h, hc⟩
  · simp only
    cases hl : K.load c with
    | some st =>
      refine always_pure hI (hok c st hl ?_)
      rcases hgz with h | ⟨h, rfl⟩
      · exact .inl (h ▸ hc)
      · exact .inr ⟨h, hc⟩
    | none =>
      refine always_pure hI (herr ?_)
      rcases hgz with h | ⟨h, rfl⟩
      · exact .inr ⟨c, h ▸ hc, hl⟩
      · exact .inl h

/-- Under `Only`, it is the current state that is read. -/
theorem always_getStack_only {φ : Bool} (K : Coder C S) {I : Bucket C → Prop} {gz : Bool} {s : String} {b : Bucket C}
    {Q : Got S → Bucket C → Prop} (ho : Only gz s b) (hI : I b)
    (hok : ∀ c st, K.load c = some st → b.current s = some c → Q (.ok st) b)
    (hno : ∀ r, (∀ st, r ≠ .ok st) → Q r b) : Always φ I (getStack K s) b Q := by
  refine always_getStack K hI (fun c st hl hc => hok c st hl ?_) (fun _ => hno _ (fun _ h => by cases h))
    (fun _ => hno _ (fun _ h => by cases h))
  rcases hc with h | ⟨_, h⟩
  · exact h
  · rw [current_only ho]
    cases gz with
    | false => exact h
    | true =>
      unfold Only at ho
      simp only [Bool.not_true] at ho
      rw [Bucket.content, ho] at h
      cases h

/-! ## Writing -/

/-- What only touches files of the stack leaves a relation to the bucket at the start that says nothing about them. -/
theorem act_keeps {φ : Bool} {o : Op C} {b b' : Bucket C} {r : Res C} (h : Act φ o b r b') {f : File} {x : Option C}
    (hf : ¬ o.touches f) (hx : b.content f = x) : b'.content f = x := by
  unfold Bucket.content at *
  rw [act_frame h f hf]
  exact hx

theorem act_keeps_only {φ : Bool} {o : Op C} {b b' : Bucket C} {r : Res C} (h : Act φ o b r b') {gz : Bool} {s : String}
    (hf : ¬ o.touches (.state s (!gz))) (hx : Only gz s b) : Only gz s b' := by
  unfold Only at *
  rw [act_frame h _ hf]
  exact hx

end Pulumi.Filestate
