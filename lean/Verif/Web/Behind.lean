import Verif.Web.Middleware

/-!
# A handler behind the HTTP middleware (trcweb/middleware.go), as its client sees it

`Verif/Web/Middleware.lean` is about what the middleware records; here is what it does to the handler. A handler
is any program: what it does next depends on what its calls returned, and on what it found out about its response
writer by type assertions. A response writer is any object with the methods of `http.ResponseWriter` and maybe
others. Not modelled: handlers with several goroutines.
-/

namespace Trc.Web.Behind

/-- `http.Header` -/
abbrev Header := List (String × String)

/-- The value of an `http.ResponseWriter` with state `σ`. A method either returns or panics. -/
structure Writer (σ : Type) where
  /-- `w.Header()`, and a change made to the map it returns -/
  header : σ → (Header → Header) → σ × Header
  writeHeader : σ → Int → σ × Except String Unit
  write : σ → List UInt8 → σ × Except String (Nat × Option String)
  /-- `Flush`, if the writer has it: then it is an `http.Flusher` -/
  flush : Option (σ → σ × Except String Unit)
  /-- any other method it may have, by name, such as `Hijack` -/
  other : String → Option (σ → String → σ × Except String String)

/-- A handler: what it does, given what its calls returned. `L` are the things it logs. -/
inductive Handler (L : Type) where
  | returns
  | panics (v : String)
  | header (change : Header → Header) (k : Header → Handler L)
  | writeHeader (code : Int) (k : Except String Unit → Handler L)
  | write (p : List UInt8) (k : Except String (Nat × Option String) → Handler L)
  /-- `if f, ok := w.(http.Flusher); ok { f.Flush() }`; `none` if the writer is not one -/
  | flush (k : Option (Except String Unit) → Handler L)
  /-- a type assertion to an interface with the method, and a call of the method -/
  | other (method : String) (arg : String) (k : Option (Except String String) → Handler L)
  /-- logging with the context of the request -/
  | log (l : L) (k : Handler L)
  /-- `_, ok := trc.MaybeGet(r.Context())` -/
  | hasTrace (k : Bool → Handler L)

/-- How a handler ends. -/
inductive End where
  | returned
  | panicked (v : String)
deriving DecidableEq, Repr

/-- What a handler finds out about its surroundings. -/
inductive Question where
  | flusher
  | other (method : String)
  | trace
deriving DecidableEq, Repr

/-- A finished request. -/
structure Done (σ L : Type) where
  state : σ
  logged : List L
  asked : List Question
  how : End

variable {σ L : Type}

/-- The handler runs with a writer and a context that has a trace or not. -/
def run (w : Writer σ) (traced : Bool) : Handler L → σ → Done σ L
  | .returns, s => ⟨s, [], [], .returned⟩
  | .panics v, s => ⟨s, [], [], .panicked v⟩
  | .header f k, s => run w traced (k (w.header s f).2) (w.header s f).1
  | .writeHeader c k, s => run w traced (k (w.writeHeader s c).2) (w.writeHeader s c).1
  | .write p k, s => run w traced (k (w.write s p).2) (w.write s p).1
  | .flush k, s =>
    let d := match w.flush with
      | none => run w traced (k none) s
      | some m => run w traced (k (some (m s).2)) (m s).1
    { d with asked := .flusher :: d.asked }
  | .other name a k, s =>
    let d := match w.other name with
      | none => run w traced (k none) s
      | some m => run w traced (k (some (m s a).2)) (m s a).1
    { d with asked := .other name :: d.asked }
  | .log l k, s =>
    let d := run w traced k s
    { d with logged := l :: d.logged }
  | .hasTrace k, s =>
    let d := run w traced (k traced) s
    { d with asked := .trace :: d.asked }

/-- `type interceptor`, middleware.go:56-62, around any writer. -/
structure IState (σ : Type) where
  inner : σ
  code : Int
  n : Int

/-- `(*interceptor).WriteHeader`, middleware.go:72-77. -/
def IState.writeHeader (w : Writer σ) (i : IState σ) (code : Int) : IState σ × Except String Unit :=
  let i := if i.code = 0 then { i with code } else i
  ({ i with inner := (w.writeHeader i.inner code).1 }, (w.writeHeader i.inner code).2)

/-- `(*interceptor).Write`, middleware.go:79-83. -/
def IState.write (w : Writer σ) (i : IState σ) (p : List UInt8) : IState σ × Except String (Nat × Option String) :=
  let r := w.write i.inner p
  match r.2 with
  | .error v => ({ i with inner := r.1 }, .error v)
  | .ok (n, err) => ({ i with inner := r.1, n := i.n + n }, .ok (n, err))

/-- `(*interceptor).Code`, middleware.go:85-90. -/
def IState.getCode (i : IState σ) : Int := if i.code = 0 then 200 else i.code

/-- `(*interceptor).Flush`, middleware.go:64-70 and 96-98. -/
def IState.flush (w : Writer σ) (i : IState σ) : IState σ × Except String Unit :=
  match w.flush with
  | none => (i, .ok ())
  | some m => ({ i with inner := (m i.inner).1 }, (m i.inner).2)

/-- The interceptor as a writer, middleware.go:56-98: it has the methods of the embedded interface
`http.ResponseWriter`, of which `Header` is the one it does not replace, and `Flush`, `Code` and `Written`. -/
def intercept (w : Writer σ) : Writer (IState σ) where
  header i f := ({ i with inner := (w.header i.inner f).1 }, (w.header i.inner f).2)
  writeHeader := IState.writeHeader w
  write := IState.write w
  flush := some (IState.flush w)
  other name :=
    if name = "Code" then some fun i _ => (i, .ok (toString i.getCode))
    else if name = "Written" then some fun i _ => (i, .ok (toString i.n))
    else none

/-- The handler made by `Middleware`, middleware.go:24-48. `made` is the panic of `categorize` or of the
constructor, if any; `line` and `headers` are what is logged first, and `outcome` what is logged last, given the
code and the number of bytes. -/
def middleware (w : Writer σ) (made : Except String Unit) (before : List L) (outcome : Int → Int → L) (h : Handler L)
    (s : σ) : Done σ L :=
  match made with
  | .error v => ⟨s, [], [], .panicked v⟩
  | .ok () =>
    let d := run (intercept w) true h { inner := s, code := 0, n := 0 }
    { state := d.state.inner, logged := before ++ d.logged ++ [outcome d.state.getCode d.state.n]
      asked := d.asked, how := d.how }

/-! ## The writer of net/http -/

/-- `*http.response` for HTTP/1, as in `Verif/Web/Middleware.lean`, with its header; `hijacked` once the handler has
taken over the connection. -/
structure NetHTTP where
  resp : Resp := {}
  header : Header := []
  hijacked : Bool := false

/-- Its methods beside those of `http.ResponseWriter` and `Flush`: those that handlers and functions of net/http
ask for (server.go of net/http). Of these only `Hijack` is given its effect. -/
def netHTTP : Writer NetHTTP where
  header s f := ({ s with header := f s.header }, s.header)
  writeHeader s c :=
    ({ s with resp := (s.resp.writeHeader c).1 },
      if (s.resp.writeHeader c).2 then .error "invalid WriteHeader code" else .ok ())
  write s p :=
    if s.hijacked then (s, .ok (0, some "http: connection has been hijacked"))
    else ({ s with resp := (s.resp.write p.length).1 }, .ok ((s.resp.write p.length).2, none))
  flush := some fun s => ({ s with resp := s.resp.flush }, .ok ())
  other name :=
    if name = "Hijack" then some fun s _ => ({ s with hijacked := true }, .ok "conn")
    else if name ∈ ["CloseNotify", "ReadFrom", "WriteString", "SetReadDeadline", "SetWriteDeadline",
      "EnableFullDuplex", "requestTooLarge"] then some fun s _ => (s, .ok "")
    else none

end Trc.Web.Behind
