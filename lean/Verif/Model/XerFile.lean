import Verif.Model.Xer
/-!
# Loading an XML file

`LoadXmlFile`, asn1crt/asn1crt_encoding_xer.c:1115-1340. The file is the list of its octets; that it can be opened is assumed.
-/
namespace Asn1

/-- `XmlState`, asn1crt/asn1crt_encoding_xer.c:1116-1124. -/
inductive XmlState where
  | start | header | startTag | content | endTag | mixed | comment
deriving DecidableEq, Repr

/-- The variables of `LoadXmlFile` besides the stream: `curState`, `PreviousState`, and what is in `tmpStrm`. -/
structure XmlLoad where
  state : XmlState
  prev : XmlState
  tmp : List Byte
deriving DecidableEq, Repr

/-- `ByteStream_AppendChar`, asn1crt/asn1crt_encoding_xer.c:1128-1136. -/
def appendChar (c : Byte) : XM Unit := do
  let s ← xGet
  if s.currentByte ≥ s.count then xFail else xPut c

/-- The loop that copies `tmpStrm`, asn1crt/asn1crt_encoding_xer.c:1227-1229. -/
def appendTmp : List Byte → XM Unit
  | [] => pure ()
  | c :: rest => do
    appendChar c
    appendTmp rest

/-- `OnXmlStart`, asn1crt/asn1crt_encoding_xer.c:1141-1167. `l1` is the next character, `none` at the end of the file. The result
says whether the next character is discarded. -/
def onXmlStart (m : XmlLoad) (c : Byte) (l1 : Option Byte) : XM (XmlLoad × Bool) :=
  if c ≠ 0x3C#8 then pure ({ m with state := .start }, false)
  else if l1 = some 0x21#8 then pure ({ m with state := .comment, prev := .start }, false)
  else if l1 = some 0x3F#8 then pure ({ m with state := .header }, false)
  else do
    appendChar c
    pure ({ m with state := .startTag }, false)

/-- `OnXmlHeader`, asn1crt/asn1crt_encoding_xer.c:1169-1186. -/
def onXmlHeader (m : XmlLoad) (c : Byte) (l1 : Option Byte) : XM (XmlLoad × Bool) :=
  if c = 0x3F#8 ∧ l1 = some 0x3E#8 then pure ({ m with state := .start }, true) else pure ({ m with state := .header }, false)

/-- `OnXmlStartTag`, asn1crt/asn1crt_encoding_xer.c:1189-1204. -/
def onXmlStartTag (m : XmlLoad) (c : Byte) : XM (XmlLoad × Bool) := do
  appendChar c
  pure ({ m with state := if c = 0x3E#8 then .content else .startTag }, false)

/-- `OnXmlContent`, asn1crt/asn1crt_encoding_xer.c:1206-1243; `TMP_BUFFER_SIZE`: line 1310. -/
def onXmlContent (m : XmlLoad) (c : Byte) (l1 : Option Byte) : XM (XmlLoad × Bool) :=
  if c ≠ 0x3C#8 then
    if m.tmp.length ≥ 4096 then xFail else pure ({ m with state := .content, tmp := m.tmp ++ [c] }, false)
  else if l1 = some 0x21#8 then pure ({ m with state := .comment, prev := .content }, false)
  else if l1 = some 0x2F#8 then do
    appendTmp m.tmp
    appendChar c
    pure ({ m with state := .endTag, tmp := [] }, false)
  else do
    appendChar c
    pure ({ m with state := .startTag, tmp := [] }, false)

/-- `OnXmlEndTag`, asn1crt/asn1crt_encoding_xer.c:1246-1261. -/
def onXmlEndTag (m : XmlLoad) (c : Byte) : XM (XmlLoad × Bool) := do
  appendChar c
  pure ({ m with state := if c = 0x3E#8 then .mixed else .endTag }, false)

/-- `OnXmlMixedContent`, asn1crt/asn1crt_encoding_xer.c:1263-1289. -/
def onXmlMixed (m : XmlLoad) (c : Byte) (l1 : Option Byte) : XM (XmlLoad × Bool) :=
  if c ≠ 0x3C#8 then pure ({ m with state := .mixed }, false)
  else if l1 = some 0x21#8 then pure ({ m with state := .comment, prev := .mixed }, false)
  else do
    appendChar c
    pure ({ m with state := if l1 = some 0x2F#8 then .endTag else .startTag }, false)

/-- `OnXmlComment`, asn1crt/asn1crt_encoding_xer.c:1292-1307. -/
def onXmlComment (m : XmlLoad) (c : Byte) (l1 : Option Byte) : XM (XmlLoad × Bool) :=
  if c = 0x2D#8 ∧ l1 = some 0x3E#8 then pure ({ m with state := m.prev }, true) else pure ({ m with state := .comment }, false)

/-- `StateMachine[curState]`, asn1crt/asn1crt_encoding_xer.c:1317, 1329. -/
def onXml (m : XmlLoad) (c : Byte) (l1 : Option Byte) : XM (XmlLoad × Bool) :=
  match m.state with
  | .start => onXmlStart m c l1
  | .header => onXmlHeader m c l1
  | .startTag => onXmlStartTag m c
  | .content => onXmlContent m c l1
  | .endTag => onXmlEndTag m c
  | .mixed => onXmlMixed m c l1
  | .comment => onXmlComment m c l1

/-- The loop over the characters, asn1crt/asn1crt_encoding_xer.c:1326-1333. -/
def loadLoop : List Byte → XmlLoad → XM XmlLoad
  | [], m => pure m
  | [c], m => do
    let r ← onXml m c none
    pure r.1
  | c :: d :: rest, m => do
    let r ← onXml m c (some d)
    if r.2 then loadLoop rest r.1 else loadLoop (d :: rest) r.1

/-- `LoadXmlFile`, asn1crt/asn1crt_encoding_xer.c:1311-1340: the number of octets loaded. `prev`: the global variable `PreviousState`
as an earlier call has left it. -/
def loadXmlFile (prev : XmlState) (file : List Byte) : XM Nat := do
  let _ ← loadLoop file ⟨.start, prev, []⟩
  let s ← xGet
  xSetPos 0
  pure s.currentByte

end Asn1
