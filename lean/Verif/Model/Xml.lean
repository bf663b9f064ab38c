import Verif.Model.Writer
import Verif.Model.Buffer
/-! # Model of libutils/xml_writer.c (on a string writer) and of HTML escaping in libutils/mustache.c

C string arguments are the bytes before the terminator. -/
namespace Xml

def write (w : Writer.W) (s : List UInt8) : Option Writer.W := (Writer.write w s).map Prod.fst

/-- The switch of `WriteEscaped` (xml_writer.c:137-156). The entity texts are the ASCII codes of `&amp;`, `&gt;`, `&quot;`, `&apos;`,
`&lt;`. -/
def writeEscapedChar (w : Writer.W) (c : UInt8) : Option Writer.W :=
  if c = 38 then write w [38, 97, 109, 112, 59]
  else if c = 62 then write w [38, 103, 116, 59]
  else if c = 34 then write w [38, 113, 117, 111, 116, 59]
  else if c = 39 then write w [38, 97, 112, 111, 115, 59]
  else if c = 60 then write w [38, 108, 116, 59]
  else (Writer.writeChar w c).map Prod.fst

/-- `WriteEscaped` (xml_writer.c:133-158). -/
def writeEscaped (w : Writer.W) : List UInt8 → Option Writer.W
  | [] => some w
  | c :: s => do
    let w ← writeEscapedChar w c
    writeEscaped w s

/-- `WriterWriteF` for a format whose result is `text`. -/
def writeF (w : Writer.W) (text : List UInt8) : Option Writer.W := (Writer.writeF w text).map Prod.fst

/-- The attribute loop (xml_writer.c:56-61): `name="value" `. -/
def attrs (w : Writer.W) : List (List UInt8 × List UInt8) → Option Writer.W
  | [] => some w
  | (n, v) :: as => do
    let w ← writeF w (n ++ [61, 34] ++ v ++ [34, 32])
    attrs w as

/-- `XmlEmitStartTag` (xml_writer.c:47-64). -/
def emitStartTag (w : Writer.W) (tag : List UInt8) (as : List (List UInt8 × List UInt8)) : Option Writer.W := do
  let w ← writeF w (60 :: tag)
  let w ← if as.length > 0 then write w [32] else some w
  let w ← attrs w as
  write w [62]

/-- `XmlStartTag` (xml_writer.c:68-82). -/
def startTag (w : Writer.W) (tag : List UInt8) (as : List (List UInt8 × List UInt8)) : Option Writer.W := do
  let w ← emitStartTag w tag as
  write w [10]

/-- `XmlEndTag` (xml_writer.c:86-94). -/
def endTag (w : Writer.W) (tag : List UInt8) : Option Writer.W := writeF w ([60, 47] ++ tag ++ [62, 10])

/-- `XmlTag` (xml_writer.c:98-117); `value = none` is NULL. -/
def tag (w : Writer.W) (name : List UInt8) (value : Option (List UInt8)) (as : List (List UInt8 × List UInt8)) : Option Writer.W := do
  let w ← emitStartTag w name as
  let w ← match value with
    | some v => writeEscaped w v
    | none => some w
  endTag w name

/-- `XmlContent` (xml_writer.c:121-129). -/
def content (w : Writer.W) (value : List UInt8) : Option Writer.W := writeEscaped w value

/-- `XmlComment` (xml_writer.c:33-43): `<!-- ` text ` -->` newline. -/
def comment (w : Writer.W) (text : List UInt8) : Option Writer.W := do
  let w ← write w [60, 33, 45, 45, 32]
  let w ← writeEscaped w text
  write w [32, 45, 45, 62, 10]

end Xml

namespace Mustache

/-- `RenderHTMLContent` (mustache.c:316-343): `input` is the `len` bytes rendered. -/
def renderHTML (b : Buffer.Buf) : List UInt8 → Option Buffer.Buf
  | [] => some b
  | c :: s => do
    let b ←
      if c = 38 then Buffer.appendString b [38, 97, 109, 112, 59]
      else if c = 34 then Buffer.appendString b [38, 113, 117, 111, 116, 59]
      else if c = 60 then Buffer.appendString b [38, 108, 116, 59]
      else if c = 62 then Buffer.appendString b [38, 103, 116, 59]
      else Buffer.appendChar b c
    renderHTML b s

end Mustache
