import Verif.Proofs.ParseWork
import Verif.Props.Lines
import Verif.Props.ParseErrors
import Verif.Model.Ip
/-
C107: how much work it is to parse.
-/
namespace Verif
open Spec ParseWork
variable {L : IpLib}

/-- C107. The counters only count: without them the parsers are those of the other properties. -/
theorem c107_counters (x : Bytes) :
    (commandParse x : Nat × Except ParseErr (Command L)).2 = Command.parse x ∧
    (domainParse x : Nat × Except ParseErr (Domain L)).2 = Domain.parse x ∧
    (emailParse x : Nat × Except ParseErr (Email L)).2 = Email.parse x ∧
    (replyParse x).2 = ReplyLine.parse x := by
  refine ⟨congrArg nomToResult ?_, congrArg nomToResult ?_, congrArg nomToResult ?_, congrArg nomToResult ?_⟩
  · exact congrFun er_commandP x
  · exact congrFun er_hostnameP x
  · exact congrFun er_emailP x
  · exact congrFun er_replyP x

/-- C107. Commands: linear work, whatever the bytes are, accepted or not. -/
theorem c107_command (line : Bytes) : (commandParse line : Nat × Except ParseErr (Command L)).1 ≤ 110 * line.length + 322 :=
  commandP_work line

/-- C107. Domains. -/
theorem c107_domain (x : Bytes) : (domainParse x : Nat × Except ParseErr (Domain L)).1 ≤ 7 * x.length + 27 :=
  (bd_hostnameP x).1

/-- C107. Addresses. -/
theorem c107_email (x : Bytes) : (emailParse x : Nat × Except ParseErr (Email L)).1 ≤ 26 * x.length + 67 :=
  (bd_emailP x).1

/-- C107. Replies. -/
theorem c107_reply (x : Bytes) : (replyParse x).1 ≤ 2 * x.length + 20 := replyP_work x

/-- C107. The counters count: what is accepted costs at least one unit per byte. -/
theorem c107_at_least (x : Bytes) :
    (∀ c, (commandParse x : Nat × Except ParseErr (Command L)).2 = .ok c → x.length ≤ (commandParse x : Nat × Except ParseErr (Command L)).1) ∧
    (∀ d, (domainParse x : Nat × Except ParseErr (Domain L)).2 = .ok d → x.length ≤ (domainParse x : Nat × Except ParseErr (Domain L)).1) ∧
    (∀ e, (emailParse x : Nat × Except ParseErr (Email L)).2 = .ok e → x.length ≤ (emailParse x : Nat × Except ParseErr (Email L)).1) ∧
    (∀ r, (replyParse x).2 = .ok r → x.length ≤ (replyParse x).1) :=
  ⟨fun _ => result_reads reads_commandP, fun _ => result_reads reads_hostnameP, fun _ => result_reads reads_emailP,
    fun _ => result_reads reads_replyP⟩

/-- C107. All command lines of a connection: reading lines from any stream of packets, the parser's work on all of them is linear
in the bytes that the stream brings, however the client cuts them into lines. -/
theorem c107_connection (s : Prep Bytes) (ls : List Bytes) (s' : Prep Bytes) (h : readLines s = .ok (ls, s')) :
    (ls.map fun l => (commandParse l : Nat × Except ParseErr (Command L)).1).sum ≤ 271 * s.bytes.length := by
  obtain ⟨ls', s2, h1, _, _, h4⟩ := c16_read_lines s
  rw [h] at h1
  cases h1
  rw [← h4, List.length_append]
  have key : ∀ ls : List Bytes, ((ls.map (· ++ crlf)).map fun l => (commandParse l : Nat × Except ParseErr (Command L)).1).sum ≤
      271 * (ls.map (· ++ crlf)).flatten.length := by
    intro ls
    induction ls with
    | nil => exact Nat.zero_le _
    | cons l ls ih =>
      simp only [List.map_cons, List.sum_cons, List.flatten_cons]
      rw [List.length_append]
      have h1 := c107_command (L := L) (l ++ crlf)
      have h2 : (l ++ crlf).length = l.length + 2 := by simp [crlf]
      omega
  have := key ls'
  omega

/-! ### Concrete cases -/

/-- What an accepted `RCPT TO:<@a,@b:c@d> X=1` of 25 bytes costs. -/
theorem c107_example :
    (commandParse (L := Ip.stdIp 2) b!"RCPT TO:<@a,@b:c@d> X=1\r\n").1 = 115 ∧
    errorOf (commandParse (L := Ip.stdIp 2) b!"RCPT TO:<@a,@b:c@d> X=1\r\n").2 = none := by
  decide +kernel

end Verif
