import Verif.Model.Rust
/-!
# Model of `/repo/wayfinder-goal/src/routes2.rs`: the old router

The router that an earlier generator wrote, kept for the comparison in `wayfinder-goal/src/benches.rs` (both modules are commented
out in `wayfinder-goal/src/lib.rs:4-5`).  It goes through the characters of the path instead of its bytes.  The state of the iterator
`path` is the rest of the text; it is fused, so that `next` at the end is `None` again and again.  Lines are those of `routes2.rs`.
-/

namespace Wayfinder.Old

variable {W : World}

/-- Lines like 259-262, one for each character: `match path.next() { Some('o') => {}, _ => return Ok(Match::NotFound) }`. -/
def expect : Str → Str → (Str → Outcome W) → Outcome W
  | [], path, k => k path
  | c :: cs, d :: path, k => if d = c then expect cs path k else .notFound
  | _ :: _, [], _ => .notFound

/-- Lines like 275-284: the end of the path is answered, a slash is skipped. -/
def orSlash (here : Outcome W) (path : Str) (k : Str → Outcome W) : Outcome W :=
  match path with
  | [] => here
  | c :: path => if c = '/' then k path else .notFound

/-- Lines like 285-293: the end of the path is answered. -/
def atEnd (here : Outcome W) : Str → Outcome W
  | [] => here
  | _ :: _ => .notFound

/-- Lines like 276-281: `match method`. -/
def arms (method : Method) : List (Method × Outcome W) → Outcome W
  | [] => .notAllowed
  | (m, o) :: more => if method = m then o else arms method more

/-- The values: `Route::People(people::Route::Show(people::Show { id, lang: None }))`. -/
def value (module name : Str) (id : List W.V) (nones : List Str) : RouteVal W :=
  ⟨[module], name, id.map fun v => (c!"id", .user v), nones⟩

/-- Lines 374-386: the loop that moves characters up to the next slash to `text`. -/
def collect (text : Str) : Str → Str × Str
  | [] => (text, [])
  | c :: path => if c = '/' then (text, path) else collect (text ++ [c]) path

/-- Lines 391-443: behind the id. -/
def one (W : World) (method : Method) (id : W.V) (path : Str) : Outcome W :=
  let edit := arms method [(.get, .route (value c!"People" c!"Edit" [id] [c!"lang"]))]
  match path with
  | [] => arms method
      [(.get, .route (value c!"People" c!"Show" [id] [c!"lang"])),
       (.put, .route (value c!"People" c!"Update" [id] [c!"lang", c!"name"])),
       (.delete, .route (value c!"People" c!"Destroy" [id] [c!"lang"]))]
  | c :: path => if c = 'e' then expect c!"dit" path fun path => orSlash edit path (atEnd edit) else .notFound

/-- Lines 317-325 and 333-341. -/
def list (W : World) (method : Method) : Outcome W :=
  arms method
    [(.get, .route (value c!"People" c!"Index" [] [c!"lang"])), (.post, .route (value c!"People" c!"Create" [] [c!"lang"]))]

/-- Lines 330-389: behind `people/`. -/
def people (W : World) (method : Method) (path : Str) : Outcome W :=
  let new := arms method [(.get, .route (value c!"People" c!"New" [] [c!"lang"]))]
  match path with
  | [] => list W method
  | c :: path =>
    if c = 'n' then expect c!"ew" path fun path => orSlash new path (atEnd new)
    else
      let (text, path) := collect [c] path
      match W.parse c!"Uuid" text with
      | .error e => .err c!"id" e
      | .ok id => one W method id path

/-- Lines 254-256: the optional slash at the beginning. -/
def skipSlash : Str → Str
  | [] => []
  | c :: path => if c = '/' then path else c :: path

/-- Lines 254-484. -/
def search (W : World) (method : Method) (path : Str) : Outcome W :=
  let books := arms method [(.get, .route (value c!"Books" c!"Index" [] [c!"lang"]))]
  let users := arms method [(.get, .redirect (value c!"People" c!"Index" [] [c!"lang"]))]
  match skipSlash path with
  | [] => .notFound
  | c :: path =>
    if c = 'b' then expect c!"ooks" path fun path => orSlash books path (atEnd books)
    else if c = 'p' then expect c!"eople" path fun path => orSlash (list W method) path (people W method)
    else if c = 'u' then expect c!"sers" path fun path => orSlash users path (atEnd users)
    else .notFound

/-- Lines 248-484: the function; `unwrap` panics if the path is not UTF-8. -/
def matchRoute (W : World) (path : Bytes) (method : Method) : Outcome W :=
  match fromUtf8 path with
  | none => .panic
  | some text => search W method text

end Wayfinder.Old
