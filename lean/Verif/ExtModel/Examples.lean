import Verif.ExtModel.Props
/-! C113 on a history. -/
namespace Verif.ExtModel
open Spec

def exHistory : List Op :=
  [.addCell ['a'], .addCell ['b'], .monitor ['a'] 5, .monitor ['b'] 6, .monitor ['a'] 7, .modelMonitor ['a'] (some 9), .addCell ['a'],
   .modelSet ['a'] 3, .set ['a'] 4, .disconnect 0, .modelSet ['a'] 8, .set ['c'] 1, .count ['a']]

example : (run St.new exHistory).2 = [.done, .done, .conn 0, .conn 1, .conn 2, .done, .done, .called [(5, 3), (7, 3)], .called [(9, 4)], .done,
    .called [(7, 8)], .logicError, .num 1] := by decide +kernel

example : Known [.addCell ['a']] ['a'] ∧ modelOf [.modelMonitor ['a'] (some 9), .addCell ['a']] ['a'] = some 9 := by
  constructor
  · exact List.mem_singleton.2 rfl
  · simp [modelOf, Known]

end Verif.ExtModel
