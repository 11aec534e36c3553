import Verif.Model.Opencv
import Verif.Spec.Dataset

/-!
# What OpenCV promises

Of cv::ml::DTrees and cv::ml::RTrees, as far as the theorems need it.
-/

namespace Apollo.Spec

variable {T : Type}

/-- Responses of type `CV_32S` make a classification: a prediction is one of the responses, as a float. -/
def Classifies (cv : Cv T) : Prop :=
  ∀ t rows resp t' f, cv.train t rows resp = .ok t' → (∀ row ∈ rows, row.length = f.length) →
    ∃ c ∈ resp, cv.predict t' f = .ok (rnd32 c)

/-- Responses of type `CV_32F` make a regression: a prediction is an average of responses, so between the
least and the greatest. -/
def Averages (cv : Cv T) : Prop :=
  ∀ rows (resp : List ℚ) t f a b, cv.regress rows (resp.map some) = .ok t →
    (∀ row ∈ rows, row.length = f.length) → (∀ x ∈ resp, a ≤ x ∧ x ≤ b) →
    ∃ x, cv.predict t f = .ok x ∧ a ≤ x ∧ x ≤ b

/-- A model that was not trained cannot predict. -/
def UntrainedThrows (cv : Cv T) : Prop :=
  ∀ p t f, cv.create p = .ok t → cv.predict t f = .error .throw

/-- What `load` returns for a file written by `save` predicts the same. -/
def LoadsSaved (cv : Cv T) : Prop :=
  ∀ t s, cv.save t = .ok s → ∃ t', cv.load (some s) = .ok (some t') ∧ ∀ f, cv.predict t' f = cv.predict t f

end Apollo.Spec
