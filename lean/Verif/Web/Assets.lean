import Verif.Web.Server

/-!
# Which texts the page is made from (trcweb/render.go:45-59, 105-168, trcweb/assets/embed.go)

Package html/template is a parameter: what a text parses to, and what a parsed template writes.
What is modelled of it is the set of templates that belong together: `New` makes a set with one
template without content, `Templates` returns all templates of the set "including t itself", in no
particular order, and a parsed text replaces the templates it defines, unless its definition is empty
and there is one already.  Directories are a function of their path and the name in them.
-/

namespace Trc.Web.Assets

/-- What a directory has under a name, as far as `os.Stat` and `os.ReadFile` tell: nothing (`Stat`
fails), a file with a text, or something that is there but can't be read as a file, as a directory. -/
inductive Entry where
  | missing
  | file (text : String)
  | unreadable
deriving DecidableEq

/-- `os.Stat` does not fail. -/
def Entry.present : Entry → Bool
  | .missing => false
  | _ => true

/-- `os.ReadFile` -/
def Entry.read : Entry → Option String
  | .file t => some t
  | _ => none

/-- Package html/template with the functions given to it, for data `D`: `T` are the parsed templates. -/
structure Engine (T D : Type) where
  /-- the templates that a text with this name defines; `none` is a syntax error -/
  parse : String → String → Option (List (String × T))
  /-- `parse.IsEmptyTree` -/
  empty : T → Bool
  /-- what a template writes, given the templates it can refer to; `none` is an error or a panic -/
  exec : (String → Option T) → T → D → Option String

/-- The templates of a set, with the one which has no content yet. -/
abbrev TSet (T : Type) := List (String × Option T)

section
variable {T D : Type} (E : Engine T D)

/-- `(*Template).AddParseTree` -/
def addTree (s : TSet T) (p : String × T) : TSet T :=
  match s.lookup p.1 with
  | none => s ++ [(p.1, some p.2)]
  | some none => s.map fun q => if q.1 = p.1 then (q.1, some p.2) else q
  | some (some _) => if E.empty p.2 then s else s.map fun q => if q.1 = p.1 then (q.1, some p.2) else q

/-- `tmpl.Parse(text)` of a template of this name in the set. -/
def parseInto (s : TSet T) (name text : String) : Option (TSet T) :=
  (E.parse name text).map (·.foldl (addTree E) s)

/-- `ParseFS(fs, "*")`, render.go:120: `assets` are the names and texts of the embedded files. -/
def parseFS (assets : List (String × String)) : Option (TSet T) :=
  assets.foldlM (fun s a => parseInto E s a.1 a.2) [("root", none)]

/-- `templateRoot.ParseFiles(localFiles...)`, render.go:144: the names are those of files in `dir`. -/
def parseFiles (dir : String → Entry) (s : TSet T) (names : List String) : Option (TSet T) :=
  names.foldlM (fun s n => ((dir n).read).bind (parseInto E s n)) s

/-- The files of the local directory, render.go:132-141. -/
def localFiles (dir : String → Entry) (templates : List String) : List String :=
  (templates.filter (· ≠ "")).filter fun n => (dir n).present

/-- `renderTemplate`, render.go:110-168.  `env` is the value of `TRC_ASSETS_DIR`, which is `""` if it is
not set; `clean` is `filepath.Clean`; `disk` tells what a directory has under a name; `order` is the order
in which `Templates` returns the templates. -/
def renderTemplate (order : List String → List String) (clean : String → String) (disk : String → String → Entry)
    (env : String) (assets : List (String × String)) (name : String) (data : D) : Except String String :=
  match parseFS E assets with
  | none => .error "parse assets"
  | some root =>
    let dir := disk (clean env)
    let files := localFiles dir (order (root.map (·.1)))
    match if files.length > 0 then parseFiles E dir root files else some root with
    | none => .error "parse local files"
    | some tt =>
      match tt.lookup name with
      | none => .error "template not found"
      | some none => .error "execute template"
      | some (some t) =>
        match E.exec (fun n => (tt.lookup n).join) t data with
        | none => .error "execute template"
        | some body => .ok body

end

/-- The embedded files, assets/embed.go:8. -/
def embedded (css html : String) : List (String × String) := [("traces.css", css), ("traces.html", html)]

/-- Whether `renderHTML` answers with 200, render.go:48-54, for the page of `handleSearch`,
trace_server.go:153. -/
def renders {T : Type} (E : Engine T SearchData) (order : List String → List String) (clean : String → String)
    (disk : String → String → Entry) (env css html : String) (data : SearchData) : Bool :=
  match renderTemplate E order clean disk env (embedded css html) "traces.html" data with
  | .ok _ => true
  | .error _ => false

end Trc.Web.Assets
