import Verif.Model.AnalyserForms
/-! Specification: the curve and the pairs of a fold. -/
namespace Alipy.ResultForms
variable {K σ : Type}

/-- `l` is the initial point, if there is one, and the performance of each state in order. -/
def IsCurve (s : Sio K) (l : List K) : Prop :=
  ∃ ps, s.states.map St.perf = ps.map some ∧ l = s.ip.toList ++ ps

/-- `l` has the cost and the performance of each state in order. -/
def IsPairs (s : Sio K) (l : List (List K × K)) : Prop :=
  s.states.map St.cost = l.map (fun p => some p.1) ∧ s.states.map St.perf = l.map (fun p => some p.2)

/-- A fold stands for a `StateIO` object: it is the object, or a path at which it was saved. -/
def Denotes (disk : String → Except PyErr (Sio K)) : FoldArg K → Sio K → Prop
  | .obj s, t => s = t
  | .path p, t => disk p = .ok t
  | _, _ => False

/-- Two analysers have the same data and summaries. -/
def SameData (a b : An K σ) : Prop := a.extracted = b.extracted ∧ a.summary = b.summary

end Alipy.ResultForms
