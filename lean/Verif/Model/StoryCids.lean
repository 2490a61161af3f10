import Verif.Model.SimpleCids

/-!
# The influence diagrams of `pycid.examples.story_cids` that have no CPDs

`add_cpds` is not called for these; `cidOf` with an empty list of relations is the constructor alone.
-/

namespace Verif

/-- `get_fitness_tracker` (story_cids.py:32-51) -/
def fitnessTracker : Py Net :=
  cidOf [("TD", "TF"), ("TF", "SC"), ("TF", "C"), ("EF", "EWD"), ("EWD", "C"), ("C", "F"), ("P", "D"), ("P", "SC"), ("P", "F"), ("SC", "C"), ("SC", "EWD")]
    ["C"] ["F"] []

/-- `get_car_accident_predictor` (story_cids.py:54-71) -/
def carAccidentPredictor : Py Net :=
  cidOf [("B", "N"), ("N", "AP"), ("N", "P"), ("P", "Race"), ("Age", "Adt"), ("Adt", "Race"), ("Race", "Accu"), ("M", "AP"), ("AP", "Accu")]
    ["AP"] ["Accu"] []

/-- `get_content_recommender` (story_cids.py:74-81) -/
def contentRecommender : Py Net := cidOf [("O", "I"), ("O", "M"), ("M", "P"), ("P", "I"), ("I", "C"), ("P", "C")] ["P"] ["C"] []

/-- `get_content_recommender2` (story_cids.py:84-87) -/
def contentRecommender2 : Py Net := cidOf [("O", "M"), ("M", "P"), ("P", "I"), ("I", "C"), ("P", "C")] ["P"] ["C"] []

/-- `get_modified_content_recommender` (story_cids.py:90-97) -/
def modifiedContentRecommender : Py Net := cidOf [("O", "I"), ("O", "M"), ("M", "P"), ("P", "I"), ("P", "C"), ("M", "C")] ["P"] ["C"] []

/-- `get_grade_predictor` (story_cids.py:100-107) -/
def gradePredictor : Py Net :=
  cidOf [("R", "HS"), ("HS", "E"), ("HS", "P"), ("E", "Gr"), ("Gr", "Ac"), ("Ge", "P"), ("P", "Ac")] ["P"] ["Ac"] []

end Verif
