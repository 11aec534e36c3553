import Verif.Proofs.FileLayout
import Verif.Props.AnyDatasetIO

/-!
# C126: the layout of a dataset file

The file that `Dataset::store` writes has no blank between two features, and cannot be loaded if an entry
has two (C06, C124).  Every other layout, where the features are words of their own, can.
-/

namespace Apollo.Props

open Apollo Apollo.Spec

/-- The numbers of an entry are in the normal ranges of their types. -/
structure FileEntryInRange (e : FileEntry) : Prop where
  idx : -2 ^ 31 ≤ e.1 ∧ e.1 < 2 ^ 31
  feat : ∀ b q, (b, AnyFloat.fin q) ∈ e.2.1 →
    q = 0 ∨ (10 ^ (-37 : ℤ) ≤ |q| ∧ |q| ≤ 10 ^ (38 : ℤ))
  pol : -2 ^ 31 ≤ e.2.2.1 ∧ e.2.2.1 < 2 ^ 31
  metric : e.2.2.2 = 0 ∨ (10 ^ (-307 : ℤ) ≤ |e.2.2.2| ∧ |e.2.2.2| ≤ 10 ^ (308 : ℤ))

theorem fileEntryOk {e : FileEntry} (h : FileEntryInRange e) : AnyDataset.FileEntryOk e := by
  refine ⟨h.idx, fun x hx => ?_, h.pol, h.metric⟩
  obtain ⟨b, x⟩ := x
  cases x with
  | fin q => exact h.feat b q hx
  | _ => trivial

/-- C126: a file in which every feature is a word of its own is loaded without error, whatever white
space stands between the words and however many features there are.  Its entries are inserted in the
order of the file, each with its features in their order; the numbers of the entries do not matter. -/
theorem C126_layout (balance : AnyDataset → AnyDataset) (es : List FileEntry)
    (hr : ∀ e ∈ es, FileEntryInRange e) (text : List Char) (hl : LaidOut (datasetWords es) text) :
    ∃ h, List.Forall₂ AnyCopy (es.map fun e => (e.2.1.map Prod.snd, e.2.2.1, e.2.2.2)) h ∧
      ∃ ds, AnyDataset.load balance .leaf text = .ok ds ∧
        AnyDataset.toVectorOfTuples ds = anyEntries balance h := by
  rw [AnyDataset.fileWords_eq] at hl
  refine ⟨es.map AnyDataset.readEntry, ?_, _,
    AnyDataset.load_laidOut balance (fun e he => fileEntryOk (hr e he)) hl .leaf, rfl⟩
  rw [List.forall₂_map_left_iff, List.forall₂_map_right_iff, List.forall₂_same]
  intro e _
  refine ⟨?_, rfl, round6 e.2.2.2, ⟨sixDigits_round6 _, fun d' hd' => round6_nearest _ d' hd'⟩, rfl⟩
  show List.Forall₂ _ (e.2.1.map Prod.snd) (e.2.1.map fun x => rereadAny x.2)
  rw [List.forall₂_map_left_iff, List.forall₂_map_right_iff, List.forall₂_same]
  rintro ⟨b, x⟩ _
  cases x with
  | fin q => exact ⟨round6 q, ⟨sixDigits_round6 _, fun d' hd' => round6_nearest _ d' hd'⟩, rfl⟩
  | _ => rfl

/-- Two entries, one with three features, one with none. -/
example : ∀ e ∈ ([(7, [(false, .fin 1), (true, .nan), (false, .fin (1/4))], 2, 3), (-1, [], 0, 1/2)] :
    List FileEntry), FileEntryInRange e := by
  intro e he
  simp only [List.mem_cons, List.not_mem_nil, or_false] at he
  rcases he with rfl | rfl
  · refine ⟨by norm_num, fun b q hq => ?_, by norm_num, Or.inr (by decide +kernel)⟩
    simp only [List.mem_cons, Prod.mk.injEq, AnyFloat.fin.injEq, List.not_mem_nil, or_false] at hq
    rcases hq with ⟨-, rfl⟩ | ⟨-, h⟩ | ⟨-, rfl⟩
    · exact Or.inr (by decide +kernel)
    · cases h
    · exact Or.inr (by decide +kernel)
  · exact ⟨by norm_num, by simp, by norm_num, Or.inr (by decide +kernel)⟩

example : LaidOut (datasetWords [(7, [(false, .fin 1), (true, .nan), (false, .fin (1/4))], 2, 3),
      (-1, [], 0, 1/2)])
    ("data: {\n7: { features: [ 1,\t-nan,\n0.25, ], policy: 2, xtime: 3 },\n" ++
      "-1: { features: [ ], policy: 0, xtime: 0.5 },\n}\n").toList := by
  refine ⟨[], [" ", "\n", " ", " ", " ", " ", "\t", "\n", " ", " ", " ", " ", " ", " ", "\n",
    " ", " ", " ", " ", " ", " ", " ", " ", " ", "\n", "\n"].map String.toList, by simp,
    by decide +kernel, ?_, by decide +kernel⟩
  have : ([" ", "\n", " ", " ", " ", " ", "\t", "\n", " ", " ", " ", " ", " ", " ", "\n",
    " ", " ", " ", " ", " ", " ", " ", " ", " ", "\n", "\n"].map String.toList).all
      (fun g => g ≠ [] && g.all (· ∈ whiteSpace)) = true := by decide +kernel
  intro g hg
  have h1 := List.all_eq_true.1 this g hg
  simpa [IsGap] using h1

/-- The entries are shown in the order of their features, each with the features as in the file. -/
example : (match AnyDataset.load id .leaf
    ("data: {\n7: { features: [ 1,\t-nan,\n0.25, ], policy: 2, xtime: 3 },\n" ++
      "-1: { features: [ ], policy: 0, xtime: 0.5 },\n}\n").toList with
    | .ok ds => decide (AnyDataset.toVectorOfTuples ds =
        [([], 0, 1/2), ([.fin 1, .nan, .fin (1/4)], 2, 3)])
    | .error _ => false) = true := by decide +kernel

end Apollo.Props
