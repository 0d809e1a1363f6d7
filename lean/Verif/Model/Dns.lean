import Verif.Model.InputFiles

/-!
The name servers of the machine during a call of `map` or `optimize`. Models `src/litdata/processing/utilities.py` lines 133-188 (`optimize_dns_context`, `optimize_dns`, `_optimize_dns`), with the use in
`src/litdata/processing/functions.py` lines 318 and 505.

`/etc/resolv.conf` is a list of lines and can be read. The command that is run as root rewrites the file or does nothing; nobody else writes it meanwhile.
-/

namespace LitData

/-- `p in s` for texts. -/
def inText (p s : PathStr) : Bool := (List.range (s.length + 1)).any fun i => p.isPrefixOf (s.drop i)

/-- The line of the local cache (`processing/utilities.py:180`). -/
def dnsCacheLine : PathStr := "nameserver 127.0.0.1\n".toList

/-- The line of systemd-resolved (`processing/utilities.py:182`). -/
def dnsSystemLine : PathStr := "nameserver 127.0.0.53\n".toList

/-- `_optimize_dns` (`processing/utilities.py:165-188`). -/
def switchDns (enable : Bool) (lines : List PathStr) : List PathStr :=
  lines.map fun l => if inText "nameserver 127".toList l then (if enable then dnsCacheLine else dnsSystemLine) else l

/-- `optimize_dns` (`processing/utilities.py:148-162`); does the command work? What it returns is not looked at. -/
def optimizeDns (inStudio works enable : Bool) (lines : List PathStr) : List PathStr :=
  if !inStudio then lines
  else if ((enable && lines.any (inText "127.0.0.53".toList)) || (!enable && lines.any (inText "127.0.0.1".toList))) && works then switchDns enable lines
  else lines

/-- How the body of the context ends: it returns, it raises an `Exception`, or something that is none, like `KeyboardInterrupt` or `SystemExit`. -/
inductive BodyEnd where
  | returns | raises | interrupted
  deriving DecidableEq

/-- The lines during the body of `optimize_dns_context` (`processing/utilities.py:139`). -/
def dnsDuring (inStudio works enable : Bool) (lines : List PathStr) : List PathStr := optimizeDns inStudio works enable lines

/-- The lines after `optimize_dns_context` (`processing/utilities.py:134-145`): `except Exception` does not see an interruption. -/
def dnsAfter (inStudio works works' enable : Bool) (e : BodyEnd) (lines : List PathStr) : List PathStr :=
  match e with
  | .interrupted => dnsDuring inStudio works enable lines
  | _ => optimizeDns inStudio works' false (dnsDuring inStudio works enable lines)

end LitData
