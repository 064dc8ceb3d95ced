import Verif.Filestate.Lemmas
/-! # Saving the state of a stack (C190) -/
namespace Pulumi.Filestate

variable {C S α β : Type}

/-- Where `backupTarget` may be. -/
structure Backed (φ : Bool) (s : String) (g keep : Bool) (b b' : Bucket C) : Prop where
  frame : ∀ f, f ≠ .bak s g → f ≠ .state s g → b'.get f = b.get f
  state : b'.get (.state s g) = b.get (.state s g) ∨ (keep = false ∧ b'.get (.state s g) = none)
  bak : φ = false → b'.content (.state s g) = b.content (.state s g) ∨ b'.content (.bak s g) = b.content (.state s g)

theorem always_backupTarget {φ : Bool} {I : Bucket C → Prop} {s : String} {g keep : Bool} {b : Bucket C} {Q : Unit → Bucket C → Prop}
    (hI : ∀ b', Backed φ s g keep b b' → I b')
    (hQ : ∀ b', Backed φ s g keep b b' → (φ = false → keep = false → b'.get (.state s g) = none) →
      (φ = false → b.get (.state s g) = none ∨ b'.content (.bak s g) = b.content (.state s g)) → Q () b') :
    Always φ I (backupTarget s g keep) b Q := by
  unfold backupTarget
  have h0 : Backed φ s g keep b b := ⟨fun _ _ _ => rfl, .inl rfl, fun _ => .inl rfl⟩
  refine always_call (hI _ h0) fun r b1 ha => ?_
  have hs : b1.get (.state s g) = b.get (.state s g) := act_frame ha _ (fun h => by cases h)
  have h1 : Backed φ s g keep b b1 := by
    refine ⟨fun f hf _ => act_frame ha f hf, .inl hs, fun _ => .inl ?_⟩
    rw [Bucket.content, hs]; rfl
  have hk : φ = false → b.get (.state s g) = none ∨ b1.content (.bak s g) = b.content (.state s g) := by
    intro hφ
    rcases act_copy ha with ⟨_, _, h⟩ | ⟨o, now, h, h'⟩
    · exact .inl (h hφ)
    · right
      rw [Bucket.content, h', Bucket.content, h]
      rfl
  cases keep with
  | true => exact always_pure (hI _ h1) (hQ _ h1 (fun _ h => by cases h) hk)
  | false =>
    refine always_call (hI _ h1) fun r2 b2 ha2 => ?_
    have hb : b2.get (.bak s g) = b1.get (.bak s g) := act_frame ha2 _ (fun h => by cases h)
    have h2 : Backed φ s g false b b2 := by
      refine ⟨fun f hf hf' => ?_, ?_, fun hφ => ?_⟩
      · rw [act_frame ha2 f hf', h1.frame f hf hf']
      · rcases act_delete ha2 with ⟨h, _⟩ | h
        · exact .inl (h.trans hs)
        · exact .inr ⟨rfl, h⟩
      · rcases act_copy ha with ⟨_, _, h⟩ | ⟨o, now, h, h'⟩
        · left
          have hn := h hφ
          rcases act_delete ha2 with ⟨h, _⟩ | h
          · rw [Bucket.content, h, hs]; rfl
          · rw [Bucket.content, h, Bucket.content, hn]
        · right
          rw [Bucket.content, hb, h', Bucket.content, h]
          rfl
    refine always_pure (hI _ h2) (hQ _ h2 (fun hφ _ => ?_) fun hφ => ?_)
    · rcases act_delete ha2 with ⟨_, _, h⟩ | h
      · rw [hφ] at h; cases h
      · exact h
    · rw [Bucket.content, hb]
      exact hk hφ

/-- Where `saveStack` may be. -/
structure Saving (φ : Bool) (s : String) (gz : Bool) (new : C) (b b' : Bucket C) : Prop where
  frame : ∀ f, (∀ g, f ≠ .state s g) → (∀ g, f ≠ .bak s g) → (∀ g t, f ≠ .retained s g t) → b'.get f = b.get f
  state : b'.get (.state s gz) = b.get (.state s gz) ∨ b'.content (.state s gz) = some new
  other : b'.get (.state s (!gz)) = b.get (.state s (!gz)) ∨ b'.get (.state s (!gz)) = none
  bak : φ = false → b'.content (.state s (!gz)) = b.content (.state s (!gz)) ∨ b'.content (.bak s (!gz)) = b.content (.state s (!gz))
  old : φ = false → b'.content (.state s gz) = b.content (.state s gz) ∨ b.get (.state s gz) = none ∨ b'.content (.bak s gz) = b.content (.state s gz)

theorem backed_saving {φ : Bool} {s : String} {gz : Bool} {new : C} {b b1 b2 : Bucket C}
    (h1 : Saving φ s gz new b b1) {g : Bool} (h2 : Backed φ s g (if g then gz else !gz) b1 b2)
    (hsame : g = !gz → b1.get (.state s (!gz)) = b.get (.state s (!gz)))
    (hst : b1.get (.state s gz) = b.get (.state s gz)) : Saving φ s gz new b b2 := by
  by_cases hg : g = gz
  · subst hg
    have hk : (if g then g else !g) = true := by cases g <;> rfl
    rw [hk] at h2
    have hs : b2.get (.state s g) = b1.get (.state s g) := h2.state.resolve_right (fun h => by cases h.1)
    have ho : b2.get (.state s (!g)) = b1.get (.state s (!g)) := h2.frame _ (fun h => by cases h) (fun h => by
      simp only [File.state.injEq, true_and] at h; cases g <;> cases h)
    have hb : b2.get (.bak s (!g)) = b1.get (.bak s (!g)) := h2.frame _ (fun h => by
      simp only [File.bak.injEq, true_and] at h; cases g <;> cases h) (fun h => by cases h)
    refine ⟨fun f h3 h4 h5 => ?_, ?_, ?_, fun hφ => ?_, fun _ => .inl (by rw [Bucket.content, hs, hst]; rfl)⟩
    · rw [h2.frame f (h4 g) (h3 g), h1.frame f h3 h4 h5]
    · rw [Bucket.content, hs]; exact h1.state
    · rw [ho]; exact h1.other
    · have hb' : b2.content (.bak s (!g)) = b1.content (.bak s (!g)) := by rw [Bucket.content, hb]; rfl
      rw [Bucket.content, ho, hb']; exact h1.bak hφ
  · have hg' : g = !gz := by cases g <;> cases gz <;> simp_all
    subst hg'
    have hk : (if (!gz) then gz else !gz) = false := by cases gz <;> rfl
    rw [hk] at h2
    have hs : b2.get (.state s gz) = b1.get (.state s gz) := h2.frame _ (fun h => by cases h) (fun h => by
      simp only [File.state.injEq, true_and] at h; cases gz <;> cases h)
    refine ⟨fun f h3 h4 h5 => ?_, ?_, ?_, fun hφ => ?_, fun _ => .inl (by rw [Bucket.content, hs, hst]; rfl)⟩
    · rw [h2.frame f (h4 _) (h3 _), h1.frame f h3 h4 h5]
    · rw [Bucket.content, hs]; exact h1.state
    · rcases h2.state with h | ⟨_, h⟩
      · rw [h]; exact h1.other
      · exact .inr h
    · have hc : b1.content (.state s (!gz)) = b.content (.state s (!gz)) := by rw [Bucket.content, hsame rfl]; rfl
      rw [← hc]
      exact h2.bak hφ

theorem saving_write {φ : Bool} {s : String} {gz : Bool} {new : C} {b b1 b2 : Bucket C} {r : Res C} (h1 : Saving φ s gz new b b1)
    (hk : φ = false → b.get (.state s gz) = none ∨ b1.content (.bak s gz) = b.content (.state s gz))
    (ha : Act φ (.write (.state s gz) new) b1 r b2) :
    Saving φ s gz new b b2 ∧ b2.get (.state s (!gz)) = b1.get (.state s (!gz)) ∧ (r = .ok → b2.content (.state s gz) = some new) ∧
      (φ = false → r = .ok) := by
  have ho : b2.get (.state s (!gz)) = b1.get (.state s (!gz)) := act_frame ha _ (fun h => by
    simp only [Op.touches, File.state.injEq, true_and] at h; cases gz <;> cases h)
  have hb : b2.get (.bak s (!gz)) = b1.get (.bak s (!gz)) := act_frame ha _ (fun h => by cases h)
  have hb2 : b2.content (.bak s gz) = b1.content (.bak s gz) := by
    rw [Bucket.content, act_frame ha _ (fun h => by cases h)]; rfl
  refine ⟨⟨fun f h3 h4 h5 => ?_, ?_, ?_, fun hφ => ?_, fun hφ => ?_⟩, ho, fun hr => ?_, fun hφ => ?_⟩
  · rw [act_frame ha f (h3 gz), h1.frame f h3 h4 h5]
  · rcases act_write ha with ⟨h, _⟩ | ⟨now, _, h⟩
    · rw [Bucket.content, h]; exact h1.state
    · right; rw [Bucket.content, h]; rfl
  · rw [ho]; exact h1.other
  · have hb' : b2.content (.bak s (!gz)) = b1.content (.bak s (!gz)) := by rw [Bucket.content, hb]; rfl
    rw [Bucket.content, ho, hb']; exact h1.bak hφ
  · rw [hb2]; exact .inr (hk hφ)
  · rcases act_write ha with ⟨_, h⟩ | ⟨now, _, h⟩
    · rw [hr] at h; cases h
    · rw [Bucket.content, h]; rfl
  · cases ha with
    | ok => rfl
    | fail h => rw [hφ] at h; cases h
    | late _ h => rw [hφ] at h; cases h

theorem saving_retained {φ : Bool} {s : String} {gz : Bool} {t : Nat} {c new : C} {b b1 b2 : Bucket C} {r : Res C}
    (h1 : Saving φ s gz new b b1) (ha : Act φ (.write (.retained s gz t) c) b1 r b2) :
    Saving φ s gz new b b2 ∧ (∀ g, b2.get (.state s g) = b1.get (.state s g)) ∧ (φ = false → r = .ok) := by
  have hs : ∀ g, b2.get (.state s g) = b1.get (.state s g) := fun g => act_frame ha _ (fun h => by cases h)
  have hb : b2.content (.bak s (!gz)) = b1.content (.bak s (!gz)) := by
    rw [Bucket.content, act_frame ha _ (fun h => by cases h)]; rfl
  have hb2 : b2.content (.bak s gz) = b1.content (.bak s gz) := by
    rw [Bucket.content, act_frame ha _ (fun h => by cases h)]; rfl
  refine ⟨⟨fun f h3 h4 h5 => ?_, ?_, ?_, fun hφ => ?_, fun hφ => ?_⟩, hs, fun hφ => ?_⟩
  · rw [act_frame ha f (h5 gz t), h1.frame f h3 h4 h5]
  · rw [Bucket.content, hs]; exact h1.state
  · rw [hs]; exact h1.other
  · rw [Bucket.content, hs, hb]; exact h1.bak hφ
  · rw [Bucket.content, hs, hb2]; exact h1.old hφ
  · cases ha with
    | ok => rfl
    | fail h => rw [hφ] at h; cases h
    | late _ h => rw [hφ] at h; cases h

theorem always_retry {φ : Bool} {s : String} {gz : Bool} {new : C} {b b1 : Bucket C} (n : Nat) (h1 : Saving φ s gz new b b1)
    (hφ : φ = true) :
    Always φ (Saving φ s gz new b) (retry (.state s gz) new n) b1 fun r b' => r = true → b'.content (.state s gz) = some new := by
  induction n generalizing b1 with
  | zero => exact ⟨h1, fun h => by cases h⟩
  | succ n ih =>
    unfold retry
    refine always_call h1 fun r b2 ha => ?_
    obtain ⟨h2, _, hr, _⟩ := saving_write h1 (fun h => by rw [hφ] at h; cases h) ha
    split
    · exact always_pure h2 (fun _ => hr rfl)
    · exact ih h2

theorem always_finish {φ : Bool} (K : Coder C S) {s : String} {gz : Bool} {keepAll : Option Nat} {st : S} {b b1 : Bucket C}
    (h1 : Saving φ s gz (K.save gz st) b b1) (hc : b1.content (.state s gz) = some (K.save gz st))
    (ho : φ = false → b1.get (.state s (!gz)) = none) :
    Always φ (Saving φ s gz (K.save gz st) b) (saveStack.finish K gz keepAll s st) b1 fun r b' =>
      b'.content (.state s gz) = some (K.save gz st) ∧ (φ = false → b'.get (.state s (!gz)) = none ∧ r = K.sound st) := by
  unfold saveStack.finish
  cases keepAll with
  | none => exact always_pure h1 ⟨hc, fun hφ => ⟨ho hφ, rfl⟩⟩
  | some t =>
    refine always_call h1 fun r b2 ha => ?_
    obtain ⟨h2, hs, hr⟩ := saving_retained h1 ha
    have hc2 : b2.content (.state s gz) = some (K.save gz st) := by rw [Bucket.content, hs]; exact hc
    split
    · exact always_pure h2 ⟨hc2, fun hφ => ⟨by rw [hs]; exact ho hφ, rfl⟩⟩
    · rename_i hne
      exact always_pure h2 ⟨hc2, fun hφ => absurd (hr hφ) hne⟩

/-- Saving, with every point at which it may be interrupted. -/
theorem always_saveStack (φ : Bool) (K : Coder C S) (s : String) (gz : Bool) (keepAll : Option Nat) (st : S) (b : Bucket C) :
    Always φ (Saving φ s gz (K.save gz st) b) (saveStack K gz keepAll s st) b fun r b' =>
      (r = true → b'.content (.state s gz) = some (K.save gz st)) ∧
      (φ = false → b'.content (.state s gz) = some (K.save gz st) ∧ b'.get (.state s (!gz)) = none ∧ r = K.sound st) := by
  have h0 : Saving φ s gz (K.save gz st) b b := ⟨fun _ _ _ _ => rfl, .inl rfl, .inl rfl, fun _ => .inl rfl, fun _ => .inl rfl⟩
  unfold saveStack
  refine always_bind' (always_stackPath h0 fun _ _ => ?_)
  have rest : ∀ b2, Saving φ s gz (K.save gz st) b b2 → (φ = false → b2.get (.state s (!gz)) = none) →
      (φ = false → b.get (.state s gz) = none ∨ b2.content (.bak s gz) = b.content (.state s gz)) →
      Always φ (Saving φ s gz (K.save gz st) b) (do
        match ← call (.write (.state s gz) (K.save gz st)) with
        | .ok => saveStack.finish K gz keepAll s st
        | _ => if ← retry (.state s gz) (K.save gz st) tries then saveStack.finish K gz keepAll s st else return false) b2 fun r b' =>
      (r = true → b'.content (.state s gz) = some (K.save gz st)) ∧
      (φ = false → b'.content (.state s gz) = some (K.save gz st) ∧ b'.get (.state s (!gz)) = none ∧ r = K.sound st) := by
    intro b2 h2 ho2 hk2
    refine always_call h2 fun r b3 ha => ?_
    obtain ⟨h3, ho, hr, hok⟩ := saving_write h2 hk2 ha
    split
    · refine always_mono (always_finish K h3 (hr rfl) fun hφ => by rw [ho]; exact ho2 hφ) (fun _ h => h) ?_
      exact fun a b4 _ h => ⟨fun _ => h.1, fun hφ => ⟨h.1, h.2 hφ⟩⟩
    · rename_i hne
      have hφ : φ = true := by
        cases φ with
        | true => rfl
        | false => exact absurd (hok rfl) hne
      subst hφ
      refine always_bind' (always_mono (always_retry tries h3 rfl) (fun _ h => h) ?_)
      intro a b4 h4 hc
      cases a with
      | true =>
        exact always_mono (always_finish K h4 (hc rfl) fun hφ => by cases hφ) (fun _ h => h)
          fun a b5 _ h => ⟨fun _ => h.1, fun hφ => by cases hφ⟩
      | false => exact always_pure h4 ⟨fun h => (by cases h), fun hφ => by cases hφ⟩
  cases gz with
  | false =>
    refine always_bind' (always_backupTarget (fun b' h => backed_saving h0 h (fun _ => rfl) rfl) fun b1 hb1 hn1 _ => ?_)
    have h1 : Saving φ s false (K.save false st) b b1 := backed_saving h0 hb1 (fun _ => rfl) rfl
    have hs : b1.get (.state s false) = b.get (.state s false) := hb1.frame _ (fun h => by cases h) (fun h => by cases h)
    refine always_bind' (always_backupTarget (fun b' h => backed_saving h1 h (fun h => by cases h) hs) fun b2 hb2 _ hk => ?_)
    refine rest b2 (backed_saving h1 hb2 (fun h => by cases h) hs) (fun hφ => ?_) fun hφ => ?_
    · rw [hb2.frame _ (fun h => by cases h) (fun h => by cases h)]
      exact hn1 hφ rfl
    · have hs' : b1.content (.state s false) = b.content (.state s false) := by rw [Bucket.content, hs]; rfl
      rw [← hs, ← hs']
      exact hk hφ
  | true =>
    refine always_bind' (always_backupTarget (fun b' h => backed_saving h0 h (fun h => by cases h) rfl) fun b1 hb1 _ hk => ?_)
    have h1 : Saving φ s true (K.save true st) b b1 := backed_saving h0 hb1 (fun h => by cases h) rfl
    have hs : b1.get (.state s false) = b.get (.state s false) := hb1.frame _ (fun h => by cases h) (fun h => by cases h)
    have hst : b1.get (.state s true) = b.get (.state s true) := hb1.state.resolve_right fun h => by cases h.1
    refine always_bind' (always_backupTarget (fun b' h => backed_saving h1 h (fun _ => hs) hst) fun b2 hb2 hn2 _ => ?_)
    refine rest b2 (backed_saving h1 hb2 (fun _ => hs) hst) (fun hφ => hn2 hφ rfl) fun hφ => ?_
    have hb : b2.content (.bak s true) = b1.content (.bak s true) := by
      rw [Bucket.content, hb2.frame _ (fun h => by cases h) (fun h => by cases h)]; rfl
    rw [hb]
    exact hk hφ

end Pulumi.Filestate
