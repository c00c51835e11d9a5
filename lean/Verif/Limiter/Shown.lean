import Verif.Limiter.RestartProps
/-!
# Looking at limits (`/repo/cmd/limit.go`, `/repo/limiter/limiter.go`), property C142

The limits and what happens to them are those of `Limiter/Store.lean` and `Limiter/Restart.lean`. A Go map is a function.
-/
namespace Verif.Limiter.Shown
open Verif.Limiter Verif.Limiter.Restart

/-- limiter.go:80-93 `GetLimits`, serverCLI.go:718-719 "getlgs" and cmd/limit.go:73-91: what `wr limit` lists. -/
def listed (mem : Groups) (n : String) : Option Int :=
  match mem n with
  | some g => if g.isCount then some g.limit else none
  | none => none

/-- serverCLI.go:706-717 "getsetlg" and server.go:3060-3083 `getSetLimitGroup` without a limit, and cmd/limit.go:93-97: what
`wr limit -g name` prints. -/
def answer (win : String → Option GroupData) (s : LStore) (n : String) : Int := (getLimit (retrieve win s.db) s.mem n).2.limit'

/-- The same with a limit: what `wr limit -g name:k` prints. -/
def answerSet (k : Int) : Int := (newCount k).limit'

end Verif.Limiter.Shown
