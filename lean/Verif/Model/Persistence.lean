import Verif.Model.Event
/-!
# persistence/persistence.go

`AOF` is a nil pointer, but `WriteCommand` does not use its receiver.  `Init` (lines 22-30) and its options are never
called or read.
-/
namespace Godis

/-- persistence.go:13-15 `WriteCommand`: `fmt.Println(r.OrgStr)` writes the text and a line feed to standard output, in one
write. -/
def writeCommand (org : Bytes) : Bytes := org ++ [10]

/-- what the server has written to its log (persistence.go:13-15, called at event/handler.go:26) -/
def Event.Sys.logText (σ : Event.Sys) : Bytes := σ.log.flatMap writeCommand

end Godis
