import Verif.Buffer.Model
import Mathlib.Tactic.Linarith

/-!
# The buffer is transparent (C21)
-/

namespace Verif.Buffer

variable {F D : Type} [DecidableEq F]

/-- Consistency of the two class attributes with the files. -/
structure Good (disk : F → Bool → Option D) (b : Buf F D) : Prop where
  nodup : b.flist.Nodup
  mem : ∀ f, f ∈ b.flist ↔ b.data f ≠ none
  value : ∀ f d, b.data f = some d → disk f b.intern = some d
  size : (b.flist.length : Int) ≤ b.size + 1
  nonneg : 0 ≤ b.size

omit [DecidableEq F] in
theorem fresh_good (disk : F → Bool → Option D) (size : Int) (intern : Bool) (h : 0 ≤ size) :
    Good disk (fresh size intern) :=
  ⟨List.nodup_nil, fun f => by simp [fresh], fun f d h => by simp [fresh] at h, by simp [fresh]; omega, h⟩

theorem evict_good (disk : F → Bool → Option D) (b : Buf F D) (h : Good disk b) :
    ∃ b', evict b = some b' ∧ Good disk b' ∧ (b'.flist.length : Int) ≤ b'.size ∧ b'.size = b.size ∧ b'.intern = b.intern ∧
      ∀ f, b.data f = none → b'.data f = none := by
  unfold evict
  by_cases hc : (b.flist.length : Int) > b.size
  · rw [if_pos hc]
    cases hl : b.flist with
    | nil => rw [hl] at hc; have := h.nonneg; simp at hc; omega
    | cons f l =>
      have hf := (h.mem f).1 (by rw [hl]; exact List.mem_cons_self)
      obtain ⟨d, hd⟩ := Option.ne_none_iff_exists'.1 hf
      have hnd := h.nodup
      rw [hl, List.nodup_cons] at hnd
      have hs := h.size
      rw [hl, List.length_cons] at hs
      refine ⟨{ b with flist := l, data := Function.update b.data f none }, ?_, ⟨hnd.2, fun g => ?_, fun g e hg => ?_, ?_, h.nonneg⟩, ?_, rfl, rfl, fun g hg => ?_⟩
      · simp only [List.head?_cons, Option.bind_eq_bind, Option.bind_some, hd, List.tail_cons]
      · simp only
        by_cases e : g = f
        · rw [e, Function.update_self]; simp [hnd.1]
        · rw [Function.update_of_ne e, ← h.mem g, hl, List.mem_cons]; simp [e]
      · simp only at hg
        by_cases e : g = f
        · rw [e, Function.update_self] at hg; cases hg
        · rw [Function.update_of_ne e] at hg; exact h.value g _ hg
      · simp only; push_cast at hs; omega
      · simp only; push_cast at hs; omega
      · simp only
        by_cases e : g = f
        · rw [e, Function.update_self]
        · rw [Function.update_of_ne e]; exact hg
  · rw [if_neg hc]
    exact ⟨b, rfl, h, by omega, rfl, rfl, fun f hf => hf⟩

theorem load_spec (disk : F → Bool → Option D) (b : Buf F D) (h : Good disk b) (f : F) :
    Good disk (loadContour disk b f).1 ∧ (loadContour disk b f).2 = disk f b.intern ∧
      (loadContour disk b f).1.intern = b.intern ∧ (loadContour disk b f).1.size = b.size := by
  unfold loadContour
  cases hd : b.data f with
  | some d => exact ⟨h, (h.value f d hd).symm, rfl, rfl⟩
  | none =>
    obtain ⟨b', h1, h2, h3, h4, h5, h6⟩ := evict_good disk b h
    rw [Option.elim_none, h1, Option.elim_some]
    unfold readFile
    cases hr : disk f b'.intern with
    | none => exact ⟨h2, by rw [← h5, hr]; rfl, h5, h4⟩
    | some d =>
      refine ⟨⟨?_, fun g => ?_, fun g e hg => ?_, ?_, h2.nonneg⟩, by rw [← h5, hr]; rfl, h5, h4⟩
      · simp only [Option.elim_some, store]
        refine List.nodup_append.2 ⟨h2.nodup, List.nodup_singleton _, fun x hx y hy hxy => ?_⟩
        have := (h2.mem x).1 hx
        rw [hxy, List.mem_singleton.1 hy] at this
        exact this (h6 f hd)
      · simp only [Option.elim_some, store]
        rw [List.mem_append, List.mem_singleton, h2.mem g]
        by_cases e : g = f
        · rw [e, Function.update_self]; simp
        · rw [Function.update_of_ne e]; simp [e]
      · simp only [Option.elim_some, store] at hg ⊢
        by_cases e' : g = f
        · rw [e', Function.update_self] at hg
          rw [e', hr, hg]
        · rw [Function.update_of_ne e'] at hg; exact h2.value g e hg
      · simp only [Option.elim_some, store]
        rw [List.length_append, List.length_singleton]; push_cast; omega

/-- C21 for one instance: whatever the sequence of requests, each answer is what reading the file gives, and the buffer never
holds more than `buffersize + 1` datasets. -/
theorem buffer_transparent (disk : F → Bool → Option D) (size : Int) (hs : 0 ≤ size) (intern : Bool) (l : List F) :
    (requests disk (fresh size intern) l).2 = l.map (fun f => disk f intern) ∧
    ((requests disk (fresh size intern) l).1.flist.length : Int) ≤ size + 1 ∧
    (requests disk (fresh size intern) l).1.flist.Nodup ∧
    ∀ f, f ∈ (requests disk (fresh size intern) l).1.flist ↔ (requests disk (fresh size intern) l).1.data f ≠ none := by
  have key : ∀ (l : List F) (b : Buf F D), Good disk b → b.intern = intern → b.size = size →
      (requests disk b l).2 = l.map (fun f => disk f intern) ∧ Good disk (requests disk b l).1 ∧
        (requests disk b l).1.size = size := by
    intro l
    induction l with
    | nil => intro b h _ h2; exact ⟨rfl, h, h2⟩
    | cons f l ih =>
      intro b h h1 h2
      obtain ⟨g1, g2, g3, g4⟩ := load_spec disk b h f
      obtain ⟨k1, k2, k3⟩ := ih _ g1 (by rw [g3, h1]) (by rw [g4, h2])
      refine ⟨?_, k2, k3⟩
      rw [requests, List.map_cons, k1, g2, h1]
  obtain ⟨k1, k2, k3⟩ := key l (fresh size intern) (fresh_good disk size intern hs) rfl rfl
  have := k2.size
  rw [k3] at this
  exact ⟨k1, this, k2.nodup, k2.mem⟩

/-- The bound is reached: `buffersize + 1` datasets are kept. -/
example : ((requests (fun f _ => some f) (fresh 1 false) [1, 2, 3]).1.flist) = [2, 3] := by decide

/-- A file is read again after an eviction, with the same answer. -/
example : (requests (fun (f : Nat) _ => if f = 9 then none else some (f * 10)) (fresh 1 false) [1, 2, 9, 3, 1, 3]).2 =
    [some 10, some 20, none, some 30, some 10, some 30] := by decide

/-- C21 is refuted for a second network of the same process: its parameters are ignored, so that asking the inner contour
(`intern=True`) gives the outer one when the first network used the outer one. -/
theorem second_instance_wrong_contour :
    let disk : Nat → Bool → Option Nat := fun f intern => some (if intern then 100 + f else f)
    let first := (requests disk (construct none 5 false) [1]).1
    (requests disk (construct (some first) 5 true) [1, 2]).2 = [some 1, some 2] ∧ disk 1 true = some 101 := by decide

omit [DecidableEq F] in
/-- A second network also ignores its window: the size of the buffer is the one of the first. -/
theorem second_instance_size (b : Buf F D) (size : Int) (intern : Bool) : (construct (some b) size intern).size = b.size := rfl

/-- C21 holds for a second network which uses the same contour. -/
theorem second_instance_same_contour (disk : F → Bool → Option D) (size size' : Int) (hs : 0 ≤ size) (intern : Bool)
    (l l' : List F) :
    (requests disk (construct (some (requests disk (fresh size intern) l).1) size' intern) l').2 =
      l'.map (fun f => disk f intern) := by
  have h := (buffer_transparent disk size hs intern (l ++ l')).1
  have happ : ∀ (l : List F) (b : Buf F D), (requests disk b (l ++ l')).2 =
      (requests disk b l).2 ++ (requests disk (requests disk b l).1 l').2 := by
    intro l
    induction l with
    | nil => intro b; rfl
    | cons f l ih => intro b; rw [List.cons_append, requests, ih]; rfl
  rw [happ, (buffer_transparent disk size hs intern l).1, List.map_append] at h
  exact List.append_cancel_left h

/-- A negative size raises at the first request. -/
theorem negative_size_raises (disk : F → Bool → Option D) (size : Int) (h : size < 0) (intern : Bool) (f : F) :
    (loadContour disk (fresh size intern) f).2 = none := by
  have : evict (fresh size intern : Buf F D) = none := by
    unfold evict fresh
    simp [h]
  unfold loadContour
  rw [this]
  rfl

end Verif.Buffer
