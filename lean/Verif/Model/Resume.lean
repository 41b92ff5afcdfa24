/-! # `WaitForResume`

/repo/utils.go:62-82: a ticker of 10 ms; when two ticks are more than 100 ms apart, the process has been stopped in between.
`SleepToResume` (/repo/terminal.go:42-53) waits for it after it has sent itself SIGTSTP.  Times are in milliseconds. -/

namespace RL.Resume

/-- /repo/utils.go:70-76: the loop.  `t` is the time of the tick before, the list the times of the ticks received; the result is the time of the tick at
which the loop ends, `none` if it has not ended. -/
def loop : (t : Nat) → List Nat → Option Nat
  | _, [] => none
  | t, now :: ts => if now - t > 100 then some now else loop now ts

end RL.Resume
