import Verif.Model.Threads

/-!
# A recovered `aceThreading` object running again

`alipy/utils/multi_thread.py` lines 181-186 and 319-348: `recover` returns an object with the savers of the files and the list of rounds to be
run, and `start_all_threads` of that object runs in the directory which the crash has left. The transition system is that of `Model/Threads.lean`.
-/
namespace Alipy.Threads

/-- The parameters of the recovered object: `_recover_arr`, multi_thread.py:327, 335 and 347; the rest is passed on, lines 321-324. -/
def Par.again (p : Par) (r : List (Bool × Option Nat)) : Par :=
  { p with todo := fun k => ((r[k]?).map Prod.fst).getD true }

/-- The recovered object on entering `__start_all_threads`, multi_thread.py:181-187, in the directory left by the crash: the savers are those of the
files, lines 333 and 345, or new ones. -/
def reinit (p : Par) (r : List (Bool × Option Nat)) (files : Nat → File) (disk : Disk) : Sys :=
  { init (p.again r) files disk with prog := fun k => (((r[k]?).bind Prod.snd).getD 0) }

end Alipy.Threads
