/-!
# How the page shows the text of an event (trcweb/assets/traces.html:431, trcweb/render.go:176-179, 218-219)

The template pipes the text through `HTMLEscape` and `InsertBreaks`; the latter's result is of type
`template.HTML` and put into the page as it is.
-/

namespace Trc.Web

/-- What `template.HTMLEscapeString` writes for a character. -/
def htmlEscapeChar (c : Char) : List Char :=
  if c = '\x00' then ['�']
  else if c = '"' then "&#34;".toList
  else if c = '\'' then "&#39;".toList
  else if c = '&' then "&amp;".toList
  else if c = '<' then "&lt;".toList
  else if c = '>' then "&gt;".toList
  else [c]

/-- `HTMLEscape`, render.go:218. -/
def htmlEscape (s : List Char) : List Char := s.flatMap htmlEscapeChar

/-- What `breaksReplacer` writes for a character, render.go:176-179. -/
def breakChar (c : Char) : List Char :=
  if c = ',' then ",<wbr>".toList
  else if c = ';' then ";<wbr>".toList
  else [c]

/-- `InsertBreaks`, render.go:219. -/
def insertBreaks (s : List Char) : List Char := s.flatMap breakChar

/-- The markup of the text of an event, traces.html:431. -/
def eventMarkup (what : List Char) : List Char := insertBreaks (htmlEscape what)

/-! ## The browser -/

/-- What a browser makes of markup: characters and tags. -/
inductive Node where
  | char (c : Char)
  | tag (name : List Char)
deriving DecidableEq, Repr

/-- The characters of a reference `&name;`; an unknown one stands for itself. -/
def reference (name : List Char) : List Node :=
  if name = "#34".toList then [.char '"']
  else if name = "#39".toList then [.char '\'']
  else if name = "amp".toList then [.char '&']
  else if name = "lt".toList then [.char '<']
  else if name = "gt".toList then [.char '>']
  else (.char '&' :: name.map .char) ++ [.char ';']

/-- Between tags, in a tag, or in a reference, with what came before in reverse. -/
inductive Reading where
  | data
  | tag (acc : List Char)
  | ref (acc : List Char)

/-- What follows a `<` begins a tag (or a comment, which is as little part of the text). -/
def tagOpens (s : List Char) : Bool :=
  match s with
  | [] => false
  | c :: _ => c.isAlpha || c == '/' || c == '!' || c == '?'

/-- What follows a `&` begins a reference. -/
def refOpens (s : List Char) : Bool :=
  match s with
  | [] => false
  | c :: _ => c.isAlphanum || c == '#'

/-- Reading markup, as browsers do, with these simplifications: a tag ends with the next `>`, also in the values of attributes and
in comments, and references have to end with `;`. -/
def readMarkup : Reading → List Char → List Node
  | .data, [] => []
  | .tag _, [] => []
  | .ref acc, [] => .char '&' :: acc.reverse.map .char
  | .data, c :: s =>
    if c = '<' ∧ tagOpens s = true then readMarkup (.tag []) s
    else if c = '&' ∧ refOpens s = true then readMarkup (.ref []) s
    else .char c :: readMarkup .data s
  | .tag acc, c :: s => if c = '>' then .tag acc.reverse :: readMarkup .data s else readMarkup (.tag (c :: acc)) s
  | .ref acc, c :: s =>
    if c = ';' then reference acc.reverse ++ readMarkup .data s
    else if (c.isAlphanum || c == '#') = true then readMarkup (.ref (c :: acc)) s
    else .char '&' :: acc.reverse.map .char ++
      if c = '<' ∧ tagOpens s = true then readMarkup (.tag []) s
      else if c = '&' ∧ refOpens s = true then readMarkup (.ref []) s
      else .char c :: readMarkup .data s

/-- `textContent` -/
def textContent (l : List Node) : List Char :=
  l.filterMap fun n => match n with
    | .char c => some c
    | .tag _ => none

/-- The tags. -/
def tagsIn (l : List Node) : List (List Char) :=
  l.filterMap fun n => match n with
    | .char _ => none
    | .tag t => some t

/-- `oldText.replace(re, '<mark class="highlight">$&</mark>')`, traces.html:84: the first match of the query in the
text, if any.  `find` is the regular expression; it gives what is before the match, the match, and the rest. -/
def mark (find : List Char → Option (List Char × List Char × List Char)) (text : List Char) : List Char :=
  match find text with
  | none => text
  | some (before, hit, after) => before ++ "<mark class=\"highlight\">".toList ++ hit ++ "</mark>".toList ++ after

/-- The text begins with a tag of the marks, in any case; how long the tag is. -/
def markTag (s : List Char) : Option Nat :=
  if (s.take 24).map Char.toLower = "<mark class=\"highlight\">".toList then some 24
  else if (s.take 7).map Char.toLower = "</mark>".toList then some 7
  else none

/-- `textContent.replace(/(<mark class="highlight">|<\/mark>)/gim, ' ')`, traces.html:83.  The number is of the characters that
are skipped. -/
def unmark : Nat → List Char → List Char
  | _, [] => []
  | n + 1, _ :: s => unmark n s
  | 0, c :: s =>
    match markTag (c :: s) with
    | some n => ' ' :: unmark (n - 1) s
    | none => c :: unmark 0 s

/-- `highlightQuery` on an element in which the query is found, traces.html:78-92: the new markup. -/
def highlighted (find : List Char → Option (List Char × List Char × List Char)) (what : List Char) : List Char :=
  mark find (unmark 0 (textContent (readMarkup .data (eventMarkup what))))

end Trc.Web
