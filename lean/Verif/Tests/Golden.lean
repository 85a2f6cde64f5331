import Verif.Model.Gen
import Verif.Model.Parse
/-!
# Golden tests (generated by `tools/mkgolden.py`)

The model, run on the configurations in `/repo/wayfinder-tests/cases`, produces byte for byte the
`routes.rs` files checked in there.  These are tests of the fidelity of the model, not proofs.
-/

namespace Wayfinder.Tests

/-- Configuration used in tests: no non-ASCII identifier characters. -/
def testCfg (altFail : Bool) : ParseCfg := ⟨fun _ => false, altFail, altFail⟩

/-- Parse and generate. -/
def pipeline (altFail : Bool) (s : String) : Option (String × Option GenFail) :=
  match routeConfig (testCfg altFail) s.toList with
  | .ok _ c => let o := codegen c; some (String.ofList o.text, o.fail)
  | _ => none

/-- `/repo/wayfinder-tests/cases/commons/routes.routes` -/
def commonsSrc : String :=
  "/\n  foobar\n    GET Foo::Bar\n  fomo\n    GET Fomo::AsUsual\n  foosh\n    GET Foosh::Ball\n  {a: String}\n    GET Bar::Dyn\n"

/-- `/repo/wayfinder-tests/cases/commons/routes.rs` -/
def commonsOut : String :=
  "pub mod routes {\n\n    //! Application route configuration.\n    //!\n    //! Of note is the function [`match_route`] as well as request structs\n    //! specific to each named resource.\n    //!\n    //! Route configuration:\n    //!\n    //! ```ignore\n    //! /\n    //!   foobar\n    //!     GET Foo::Bar\n    //!   fomo\n    //!     GET Fomo::AsUsual\n    //!   foosh\n    //!     GET Foosh::Ball\n    //!   {a: String}\n    //!     GET Bar::Dyn\n    //! ```\n    //!\n    //! [`match_route`]: fn.match_route.html\n\n    #![allow(dead_code)]\n    #![allow(unused_imports)]\n    #![allow(unused_mut)]\n    #![allow(unused_variables)]\n\n    pub mod bar {\n        /// Renders for `GET /{a}`.\n        #[derive(Debug, PartialEq, Eq)]\n        pub struct Dyn {\n            pub a: String,\n        }\n\n        impl Dyn {\n            /// Make a path to this route with the given parameters.\n            pub fn to_path(&self) -> String {\n                let Dyn { ref a, } = self;\n                format!(\"/{}\", a)\n            }\n        }\n\n        /// Parameters for requests to the bar controller.\n        #[derive(Debug, PartialEq, Eq)]\n        pub enum Route {\n            Dyn(Dyn),\n        }\n\n        impl Route {\n            /// Make a path to this route with the given parameters.\n            pub fn to_path(&self) -> String {\n                match self {\n                    Route::Dyn(ref route) => route.to_path(),\n                }\n            }\n        }\n    }\n\n    pub mod fomo {\n        /// Renders for `GET /fomo`.\n        #[derive(Debug, PartialEq, Eq)]\n        pub struct AsUsual;\n\n        impl AsUsual {\n            /// Make a path to this route with the given parameters.\n            pub fn to_path(&self) -> String {\n                format!(\"/fomo\")\n            }\n        }\n\n        /// Parameters for requests to the fomo controller.\n        #[derive(Debug, PartialEq, Eq)]\n        pub enum Route {\n            AsUsual(AsUsual),\n        }\n\n        impl Route {\n            /// Make a path to this route with the given parameters.\n            pub fn to_path(&self) -> String {\n                match self {\n                    Route::AsUsual(ref route) => route.to_path(),\n                }\n            }\n        }\n    }\n\n    pub mod foo {\n        /// Renders for `GET /foobar`.\n        #[derive(Debug, PartialEq, Eq)]\n        pub struct Bar;\n\n        impl Bar {\n            /// Make a path to this route with the given parameters.\n            pub fn to_path(&self) -> String {\n                format!(\"/foobar\")\n            }\n        }\n\n        /// Parameters for requests to the foo controller.\n        #[derive(Debug, PartialEq, Eq)]\n        pub enum Route {\n            Bar(Bar),\n        }\n\n        impl Route {\n            /// Make a path to this route with the given parameters.\n            pub fn to_path(&self) -> String {\n                match self {\n                    Route::Bar(ref route) => route.to_path(),\n                }\n            }\n        }\n    }\n\n    pub mod foosh {\n        /// Renders for `GET /foosh`.\n        #[derive(Debug, PartialEq, Eq)]\n        pub struct Ball;\n\n        impl Ball {\n            /// Make a path to this route with the given parameters.\n            pub fn to_path(&self) -> String {\n                format!(\"/foosh\")\n            }\n        }\n\n        /// Parameters for requests to the foosh controller.\n        #[derive(Debug, PartialEq, Eq)]\n        pub enum Route {\n            Ball(Ball),\n        }\n\n        impl Route {\n            /// Make a path to this route with the given parameters.\n            pub fn to_path(&self) -> String {\n                match self {\n                    Route::Ball(ref route) => route.to_path(),\n                }\n            }\n        }\n    }\n\n    /// An active route in the application -- match against this.\n    #[derive(Debug, PartialEq, Eq)]\n    pub enum Route {\n        Bar(bar::Route),\n        Fomo(fomo::Route),\n        Foo(foo::Route),\n        Foosh(foosh::Route),\n    }\n\n    impl Route {\n        /// Make a path to this route with the given parameters.\n        pub fn to_path(&self) -> String {\n            match self {\n                Route::Bar(ref route) => route.to_path(),\n                Route::Fomo(ref route) => route.to_path(),\n                Route::Foo(ref route) => route.to_path(),\n                Route::Foosh(ref route) => route.to_path(),\n            }\n        }\n    }\n\n    #[derive(PartialEq, Eq)]\n    pub enum Match<T> {\n        NotFound,\n        NotAllowed,\n        Route(T),\n        Redirect(T),\n    }\n\n    use std::fmt;\n    impl<T: fmt::Debug> fmt::Debug for Match<T> {\n        fn fmt(&self, f: &mut fmt::Formatter) -> fmt::Result {\n            match self {\n                Match::NotFound => write!(f, \"Match::NotFound\"),\n                Match::NotAllowed => write!(f, \"Match::NotAllowed\"),\n                Match::Route(t) => write!(f, \"Match::Route({:?})\", t),\n                Match::Redirect(t) => write!(f, \"Match::Redirect({:?})\", t),\n            }\n        }\n    }\n\n    pub struct Error {\n        param: String,\n        what: Box<dyn fmt::Debug>,\n    }\n\n    impl fmt::Debug for Error {\n        fn fmt(&self, f: &mut fmt::Formatter) -> fmt::Result {\n            f.debug_struct(\"wayfinder::Error\")\n                .field(\"param\", &self.param)\n                .field(\"what\", &self.what)\n                .finish()\n        }\n    }\n\n    impl fmt::Display for Error {\n        fn fmt(&self, f: &mut fmt::Formatter) -> fmt::Result {\n            write!(\n                f,\n                \"Error parsing '{}' parameter {:?}\",\n                self.param, self.what\n            )\n        }\n    }\n\n    impl std::error::Error for Error {}\n\n    impl Error {\n        pub fn fail<S: AsRef<str>, T: fmt::Debug + 'static>(param: S, what: T) -> Error {\n            Error {\n                param: param.as_ref().to_string(),\n                what: Box::new(what),\n            }\n        }\n    }\n    /// Match a path and method against this router.\n    ///\n    /// Accepts a byte slice for the request path and HTTP verb.\n    /// Returns a `Result`, usually `Ok` with the result of the\n    /// [`Match`].\n    ///\n    /// If the match was successful, it will be a `Match::Route` or\n    /// `Match::Redirect` with the parameters enclosed.  You can then\n    /// match on the [`Route`] to pass control of the request along to\n    /// a specific handler.\n    ///\n    /// If there is no match, this will return `Match::NotFound`\n    /// if no path matches (which you could return as `404 Not Found`),\n    /// or `Match::NotAllowed` if no method matches (in which case a\n    /// `405 Not Allowed` would be appropriate).\n    ///\n    /// If a route parameter fails to parse correctly, this will return\n    /// `Err` with the underlying parsing error.  Usually you'll want\n    /// to send back a `400 Bad Request` for that.\n    ///\n    /// [`Match`]: enum.Match.html\n    /// [`Route`]: enum.Route.html\n    pub fn match_route<P: AsRef<[u8]>, M: AsRef<[u8]>>(\n        path: P,\n        method: M,\n    ) -> Result<Match<Route>, Error> {\n        let method = method.as_ref();\n        let path = path.as_ref();\n        let len = path.len();\n        let mut i = if len > 0 && &path[0..1] == b\"/\" { 1 } else { 0 };\n\n\n        let start = i;\n\n        if i + 3 <= len {\n            match &path[i..i+3] {\n                b\"fo\" => {\n                    i += 3;\n                    if i == len {\n                        return Ok(Match::NotFound);\n                    }\n                    match &path[i..i+1] {\n                        b\"m\" => {\n                            i += 1;\n                            if i == len {\n                                return Ok(Match::NotFound);\n                            }\n                            match &path[i..i+1] {\n                                b\"o\" => {\n                                    i += 1;\n                                },\n                                _ => return Ok(Match::NotFound),\n                            }\n                            if i == len {\n                                match method {\n                                    b\"GET\" => return Ok(Match::Route(Route::Fomo(fomo::Route::AsUsual(fomo::AsUsual {\n                                    })))),\n                                    _ => return Ok(Match::NotAllowed),\n                                }\n                            }\n                            match &path[i..i+1] {\n                                b\"/\" => {\n                                    i += 1;\n                                },\n                                _ => return Ok(Match::NotFound),\n                            }\n                            if i == len {\n                                match method {\n                                    b\"GET\" => return Ok(Match::Route(Route::Fomo(fomo::Route::AsUsual(fomo::AsUsual {\n                                    })))),\n                                    _ => return Ok(Match::NotAllowed),\n                                }\n                            }\n                            return Ok(Match::NotFound);\n                        },\n                        b\"o\" => {\n                            i += 1;\n                            if i == len {\n                                return Ok(Match::NotFound);\n                            }\n                            match &path[i..i+1] {\n                                b\"b\" => {\n                                    i += 1;\n                                    if i + 2 > len {\n                                        return Ok(Match::NotFound);\n                                    }\n                                    match &path[i..i+2] {\n                                        b\"ar\" => {\n                                            i += 2;\n                                        },\n                                        _ => return Ok(Match::NotFound),\n                                    }\n                                    if i == len {\n                                        match method {\n                                            b\"GET\" => return Ok(Match::Route(Route::Foo(foo::Route::Bar(foo::Bar {\n                                            })))),\n                                            _ => return Ok(Match::NotAllowed),\n                                        }\n                                    }\n                                    match &path[i..i+1] {\n                                        b\"/\" => {\n                                            i += 1;\n                                        },\n                                        _ => return Ok(Match::NotFound),\n                                    }\n                                    if i == len {\n                                        match method {\n                                            b\"GET\" => return Ok(Match::Route(Route::Foo(foo::Route::Bar(foo::Bar {\n                                            })))),\n                                            _ => return Ok(Match::NotAllowed),\n                                        }\n                                    }\n                                    return Ok(Match::NotFound);\n                                },\n                                b\"s\" => {\n                                    i += 1;\n                                    if i == len {\n                                        return Ok(Match::NotFound);\n                                    }\n                                    match &path[i..i+1] {\n                                        b\"h\" => {\n                                            i += 1;\n                                        },\n                                        _ => return Ok(Match::NotFound),\n                                    }\n                                    if i == len {\n                                        match method {\n                                            b\"GET\" => return Ok(Match::Route(Route::Foosh(foosh::Route::Ball(foosh::Ball {\n                                            })))),\n                                            _ => return Ok(Match::NotAllowed),\n                                        }\n                                    }\n                                    match &path[i..i+1] {\n                                        b\"/\" => {\n                                            i += 1;\n                                        },\n                                        _ => return Ok(Match::NotFound),\n                                    }\n                                    if i == len {\n                                        match method {\n                                            b\"GET\" => return Ok(Match::Route(Route::Foosh(foosh::Route::Ball(foosh::Ball {\n                                            })))),\n                                            _ => return Ok(Match::NotAllowed),\n                                        }\n                                    }\n                                    return Ok(Match::NotFound);\n                                },\n                                _ => return Ok(Match::NotFound),\n                            }\n                        },\n                        _ => return Ok(Match::NotFound),\n                    }\n                },\n                _ => {},\n            }\n        }\n\n        while i < len && &path[i..i+1] != b\"/\" {\n            i += 1;\n        }\n\n        let text = std::str::from_utf8(&path[start..i]).unwrap();\n        let a = text.parse()\n            .map_err(|e| Error::fail(\"a\", e))?;\n\n        if i == len {\n            match method {\n                b\"GET\" => return Ok(Match::Route(Route::Bar(bar::Route::Dyn(bar::Dyn {\n                    a,\n                })))),\n                _ => return Ok(Match::NotAllowed),\n            }\n        }\n        match &path[i..i+1] {\n            b\"/\" => {\n                i += 1;\n            },\n            _ => return Ok(Match::NotFound),\n        }\n        if i == len {\n            match method {\n                b\"GET\" => return Ok(Match::Route(Route::Bar(bar::Route::Dyn(bar::Dyn {\n                    a,\n                })))),\n                _ => return Ok(Match::NotAllowed),\n            }\n        }\n        return Ok(Match::NotFound);\n    }\n\n} // mod routes\n"

#guard pipeline false commonsSrc == some (commonsOut, none)
#guard pipeline true commonsSrc == some (commonsOut, none)

/-- `/repo/wayfinder-tests/cases/example/routes.routes` -/
def exampleSrc : String :=
  "use uuid::Uuid;\n\n/\n  [lang: String]\n\n  users\n    GET -> People::Index\n\n  people\n    GET People::Index\n    POST People::Create\n\n    new\n      GET People::New\n\n    {id: Uuid}\n      GET People::Show\n      PUT People::Update\n        [name: String]\n      DELETE People::Destroy\n\n      edit\n        GET People::Edit\n\n  books\n    GET Books::Index\n    POST Books::Create\n\n    new\n      GET Books::New\n\n    {id: Uuid}\n      GET Books::Show\n      PUT Books::update\n      DELETE Books::Destroy\n\n      edit\n        GET Books::Edit\n"

/-- `/repo/wayfinder-tests/cases/example/routes.rs` -/
def exampleOut : String :=
  "pub mod routes {\n\n    //! Application route configuration.\n    //!\n    //! Of note is the function [`match_route`] as well as request structs\n    //! specific to each named resource.\n    //!\n    //! Route configuration:\n    //!\n    //! ```ignore\n    //! /\n    //!   [lang: String]\n    //!   users\n    //!     GET -> People::Index\n    //!   people\n    //!     GET People::Index\n    //!     POST People::Create\n    //!     new\n    //!       GET People::New\n    //!     {id: Uuid}\n    //!       GET People::Show\n    //!       PUT People::Update\n    //!         [name: String]\n    //!       DELETE People::Destroy\n    //!       edit\n    //!         GET People::Edit\n    //!   books\n    //!     GET Books::Index\n    //!     POST Books::Create\n    //!     new\n    //!       GET Books::New\n    //!     {id: Uuid}\n    //!       GET Books::Show\n    //!       PUT Books::update\n    //!       DELETE Books::Destroy\n    //!       edit\n    //!         GET Books::Edit\n    //! ```\n    //!\n    //! [`match_route`]: fn.match_route.html\n\n    #![allow(dead_code)]\n    #![allow(unused_imports)]\n    #![allow(unused_mut)]\n    #![allow(unused_variables)]\n\n    use uuid::Uuid;\n\n    pub mod books {\n        use uuid::Uuid;\n\n        /// Renders for `POST /books`.\n        #[derive(Debug, PartialEq, Eq)]\n        pub struct Create {\n            pub lang: Option<String>,\n        }\n\n        impl Create {\n            /// Make a path to this route with the given parameters.\n            pub fn to_path(&self) -> String {\n                let Create { ref lang, } = self;\n                format!(\"/books\")\n            }\n        }\n\n        /// Renders for `DELETE /books/{id}`.\n        #[derive(Debug, PartialEq, Eq)]\n        pub struct Destroy {\n            pub id: Uuid,\n            pub lang: Option<String>,\n        }\n\n        impl Destroy {\n            /// Make a path to this route with the given parameters.\n            pub fn to_path(&self) -> String {\n                let Destroy { ref id, ref lang, } = self;\n                format!(\"/books/{}\", id)\n            }\n        }\n\n        /// Renders for `GET /books/{id}/edit`.\n        #[derive(Debug, PartialEq, Eq)]\n        pub struct Edit {\n            pub id: Uuid,\n            pub lang: Option<String>,\n        }\n\n        impl Edit {\n            /// Make a path to this route with the given parameters.\n            pub fn to_path(&self) -> String {\n                let Edit { ref id, ref lang, } = self;\n                format!(\"/books/{}/edit\", id)\n            }\n        }\n\n        /// Renders for `GET /books`.\n        #[derive(Debug, PartialEq, Eq)]\n        pub struct Index {\n            pub lang: Option<String>,\n        }\n\n        impl Index {\n            /// Make a path to this route with the given parameters.\n            pub fn to_path(&self) -> String {\n                let Index { ref lang, } = self;\n                format!(\"/books\")\n            }\n        }\n\n        /// Renders for `GET /books/new`.\n        #[derive(Debug, PartialEq, Eq)]\n        pub struct New {\n            pub lang: Option<String>,\n        }\n\n        impl New {\n            /// Make a path to this route with the given parameters.\n            pub fn to_path(&self) -> String {\n                let New { ref lang, } = self;\n                format!(\"/books/new\")\n            }\n        }\n\n        /// Renders for `GET /books/{id}`.\n        #[derive(Debug, PartialEq, Eq)]\n        pub struct Show {\n            pub id: Uuid,\n            pub lang: Option<String>,\n        }\n\n        impl Show {\n            /// Make a path to this route with the given parameters.\n            pub fn to_path(&self) -> String {\n                let Show { ref id, ref lang, } = self;\n                format!(\"/books/{}\", id)\n            }\n        }\n\n        /// Renders for `PUT /books/{id}`.\n        #[derive(Debug, PartialEq, Eq)]\n        pub struct Update {\n            pub id: Uuid,\n            pub lang: Option<String>,\n        }\n\n        impl Update {\n            /// Make a path to this route with the given parameters.\n            pub fn to_path(&self) -> String {\n                let Update { ref id, ref lang, } = self;\n                format!(\"/books/{}\", id)\n            }\n        }\n\n        /// Parameters for requests to the books controller.\n        #[derive(Debug, PartialEq, Eq)]\n        pub enum Route {\n            Create(Create),\n            Destroy(Destroy),\n            Edit(Edit),\n            Index(Index),\n            New(New),\n            Show(Show),\n            Update(Update),\n        }\n\n        impl Route {\n            /// Make a path to this route with the given parameters.\n            pub fn to_path(&self) -> String {\n                match self {\n                    Route::Create(ref route) => route.to_path(),\n                    Route::Destroy(ref route) => route.to_path(),\n                    Route::Edit(ref route) => route.to_path(),\n                    Route::Index(ref route) => route.to_path(),\n                    Route::New(ref route) => route.to_path(),\n                    Route::Show(ref route) => route.to_path(),\n                    Route::Update(ref route) => route.to_path(),\n                }\n            }\n        }\n    }\n\n    pub mod people {\n        use uuid::Uuid;\n\n        /// Renders for `POST /people`.\n        #[derive(Debug, PartialEq, Eq)]\n        pub struct Create {\n            pub lang: Option<String>,\n        }\n\n        impl Create {\n            /// Make a path to this route with the given parameters.\n            pub fn to_path(&self) -> String {\n                let Create { ref lang, } = self;\n                format!(\"/people\")\n            }\n        }\n\n        /// Renders for `DELETE /people/{id}`.\n        #[derive(Debug, PartialEq, Eq)]\n        pub struct Destroy {\n            pub id: Uuid,\n            pub lang: Option<String>,\n        }\n\n        impl Destroy {\n            /// Make a path to this route with the given parameters.\n            pub fn to_path(&self) -> String {\n                let Destroy { ref id, ref lang, } = self;\n                format!(\"/people/{}\", id)\n            }\n        }\n\n        /// Renders for `GET /people/{id}/edit`.\n        #[derive(Debug, PartialEq, Eq)]\n        pub struct Edit {\n            pub id: Uuid,\n            pub lang: Option<String>,\n        }\n\n        impl Edit {\n            /// Make a path to this route with the given parameters.\n            pub fn to_path(&self) -> String {\n                let Edit { ref id, ref lang, } = self;\n                format!(\"/people/{}/edit\", id)\n            }\n        }\n\n        /// Renders for `GET /people`.\n        #[derive(Debug, PartialEq, Eq)]\n        pub struct Index {\n            pub lang: Option<String>,\n        }\n\n        impl Index {\n            /// Make a path to this route with the given parameters.\n            pub fn to_path(&self) -> String {\n                let Index { ref lang, } = self;\n                format!(\"/people\")\n            }\n        }\n\n        /// Renders for `GET /people/new`.\n        #[derive(Debug, PartialEq, Eq)]\n        pub struct New {\n            pub lang: Option<String>,\n        }\n\n        impl New {\n            /// Make a path to this route with the given parameters.\n            pub fn to_path(&self) -> String {\n                let New { ref lang, } = self;\n                format!(\"/people/new\")\n            }\n        }\n\n        /// Renders for `GET /people/{id}`.\n        #[derive(Debug, PartialEq, Eq)]\n        pub struct Show {\n            pub id: Uuid,\n            pub lang: Option<String>,\n        }\n\n        impl Show {\n            /// Make a path to this route with the given parameters.\n            pub fn to_path(&self) -> String {\n                let Show { ref id, ref lang, } = self;\n                format!(\"/people/{}\", id)\n            }\n        }\n\n        /// Renders for `PUT /people/{id}`.\n        #[derive(Debug, PartialEq, Eq)]\n        pub struct Update {\n            pub id: Uuid,\n            pub lang: Option<String>,\n            pub name: Option<String>,\n        }\n\n        impl Update {\n            /// Make a path to this route with the given parameters.\n            pub fn to_path(&self) -> String {\n                let Update { ref id, ref lang, ref name, } = self;\n                format!(\"/people/{}\", id)\n            }\n        }\n\n        /// Parameters for requests to the people controller.\n        #[derive(Debug, PartialEq, Eq)]\n        pub enum Route {\n            Create(Create),\n            Destroy(Destroy),\n            Edit(Edit),\n            Index(Index),\n            New(New),\n            Show(Show),\n            Update(Update),\n        }\n\n        impl Route {\n            /// Make a path to this route with the given parameters.\n            pub fn to_path(&self) -> String {\n                match self {\n                    Route::Create(ref route) => route.to_path(),\n                    Route::Destroy(ref route) => route.to_path(),\n                    Route::Edit(ref route) => route.to_path(),\n                    Route::Index(ref route) => route.to_path(),\n                    Route::New(ref route) => route.to_path(),\n                    Route::Show(ref route) => route.to_path(),\n                    Route::Update(ref route) => route.to_path(),\n                }\n            }\n        }\n    }\n\n    /// An active route in the application -- match against this.\n    #[derive(Debug, PartialEq, Eq)]\n    pub enum Route {\n        Books(books::Route),\n        People(people::Route),\n    }\n\n    impl Route {\n        /// Make a path to this route with the given parameters.\n        pub fn to_path(&self) -> String {\n            match self {\n                Route::Books(ref route) => route.to_path(),\n                Route::People(ref route) => route.to_path(),\n            }\n        }\n    }\n\n    #[derive(PartialEq, Eq)]\n    pub enum Match<T> {\n        NotFound,\n        NotAllowed,\n        Route(T),\n        Redirect(T),\n    }\n\n    use std::fmt;\n    impl<T: fmt::Debug> fmt::Debug for Match<T> {\n        fn fmt(&self, f: &mut fmt::Formatter) -> fmt::Result {\n            match self {\n                Match::NotFound => write!(f, \"Match::NotFound\"),\n                Match::NotAllowed => write!(f, \"Match::NotAllowed\"),\n                Match::Route(t) => write!(f, \"Match::Route({:?})\", t),\n                Match::Redirect(t) => write!(f, \"Match::Redirect({:?})\", t),\n            }\n        }\n    }\n\n    pub struct Error {\n        param: String,\n        what: Box<dyn fmt::Debug>,\n    }\n\n    impl fmt::Debug for Error {\n        fn fmt(&self, f: &mut fmt::Formatter) -> fmt::Result {\n            f.debug_struct(\"wayfinder::Error\")\n                .field(\"param\", &self.param)\n                .field(\"what\", &self.what)\n                .finish()\n        }\n    }\n\n    impl fmt::Display for Error {\n        fn fmt(&self, f: &mut fmt::Formatter) -> fmt::Result {\n            write!(\n                f,\n                \"Error parsing '{}' parameter {:?}\",\n                self.param, self.what\n            )\n        }\n    }\n\n    impl std::error::Error for Error {}\n\n    impl Error {\n        pub fn fail<S: AsRef<str>, T: fmt::Debug + 'static>(param: S, what: T) -> Error {\n            Error {\n                param: param.as_ref().to_string(),\n                what: Box::new(what),\n            }\n        }\n    }\n    /// Match a path and method against this router.\n    ///\n    /// Accepts a byte slice for the request path and HTTP verb.\n    /// Returns a `Result`, usually `Ok` with the result of the\n    /// [`Match`].\n    ///\n    /// If the match was successful, it will be a `Match::Route` or\n    /// `Match::Redirect` with the parameters enclosed.  You can then\n    /// match on the [`Route`] to pass control of the request along to\n    /// a specific handler.\n    ///\n    /// If there is no match, this will return `Match::NotFound`\n    /// if no path matches (which you could return as `404 Not Found`),\n    /// or `Match::NotAllowed` if no method matches (in which case a\n    /// `405 Not Allowed` would be appropriate).\n    ///\n    /// If a route parameter fails to parse correctly, this will return\n    /// `Err` with the underlying parsing error.  Usually you'll want\n    /// to send back a `400 Bad Request` for that.\n    ///\n    /// [`Match`]: enum.Match.html\n    /// [`Route`]: enum.Route.html\n    pub fn match_route<P: AsRef<[u8]>, M: AsRef<[u8]>>(\n        path: P,\n        method: M,\n    ) -> Result<Match<Route>, Error> {\n        let method = method.as_ref();\n        let path = path.as_ref();\n        let len = path.len();\n        let mut i = if len > 0 && &path[0..1] == b\"/\" { 1 } else { 0 };\n\n        if i == len {\n            return Ok(Match::NotFound);\n        }\n        match &path[i..i+1] {\n            b\"b\" => {\n                i += 1;\n                if i + 4 > len {\n                    return Ok(Match::NotFound);\n                }\n                match &path[i..i+4] {\n                    b\"ooks\" => {\n                        i += 4;\n                    },\n                    _ => return Ok(Match::NotFound),\n                }\n                if i == len {\n                    match method {\n                        b\"GET\" => return Ok(Match::Route(Route::Books(books::Route::Index(books::Index {\n                            lang: None,\n                        })))),\n                        b\"POST\" => return Ok(Match::Route(Route::Books(books::Route::Create(books::Create {\n                            lang: None,\n                        })))),\n                        _ => return Ok(Match::NotAllowed),\n                    }\n                }\n                match &path[i..i+1] {\n                    b\"/\" => {\n                        i += 1;\n                    },\n                    _ => return Ok(Match::NotFound),\n                }\n                if i == len {\n                    match method {\n                        b\"GET\" => return Ok(Match::Route(Route::Books(books::Route::Index(books::Index {\n                            lang: None,\n                        })))),\n                        b\"POST\" => return Ok(Match::Route(Route::Books(books::Route::Create(books::Create {\n                            lang: None,\n                        })))),\n                        _ => return Ok(Match::NotAllowed),\n                    }\n                }\n\n                let start = i;\n\n                if i + 3 <= len {\n                    match &path[i..i+3] {\n                        b\"new\" => {\n                            i += 3;\n                            if i == len {\n                                match method {\n                                    b\"GET\" => return Ok(Match::Route(Route::Books(books::Route::New(books::New {\n                                        lang: None,\n                                    })))),\n                                    _ => return Ok(Match::NotAllowed),\n                                }\n                            }\n                            match &path[i..i+1] {\n                                b\"/\" => {\n                                    i += 1;\n                                },\n                                _ => return Ok(Match::NotFound),\n                            }\n                            if i == len {\n                                match method {\n                                    b\"GET\" => return Ok(Match::Route(Route::Books(books::Route::New(books::New {\n                                        lang: None,\n                                    })))),\n                                    _ => return Ok(Match::NotAllowed),\n                                }\n                            }\n                            return Ok(Match::NotFound);\n                        },\n                        _ => {},\n                    }\n                }\n\n                while i < len && &path[i..i+1] != b\"/\" {\n                    i += 1;\n                }\n\n                let text = std::str::from_utf8(&path[start..i]).unwrap();\n                let id = text.parse()\n                    .map_err(|e| Error::fail(\"id\", e))?;\n\n                if i == len {\n                    match method {\n                        b\"GET\" => return Ok(Match::Route(Route::Books(books::Route::Show(books::Show {\n                            id,\n                            lang: None,\n                        })))),\n                        b\"PUT\" => return Ok(Match::Route(Route::Books(books::Route::Update(books::Update {\n                            id,\n                            lang: None,\n                        })))),\n                        b\"DELETE\" => return Ok(Match::Route(Route::Books(books::Route::Destroy(books::Destroy {\n                            id,\n                            lang: None,\n                        })))),\n                        _ => return Ok(Match::NotAllowed),\n                    }\n                }\n                match &path[i..i+1] {\n                    b\"/\" => {\n                        i += 1;\n                    },\n                    _ => return Ok(Match::NotFound),\n                }\n                if i == len {\n                    match method {\n                        b\"GET\" => return Ok(Match::Route(Route::Books(books::Route::Show(books::Show {\n                            id,\n                            lang: None,\n                        })))),\n                        b\"PUT\" => return Ok(Match::Route(Route::Books(books::Route::Update(books::Update {\n                            id,\n                            lang: None,\n                        })))),\n                        b\"DELETE\" => return Ok(Match::Route(Route::Books(books::Route::Destroy(books::Destroy {\n                            id,\n                            lang: None,\n                        })))),\n                        _ => return Ok(Match::NotAllowed),\n                    }\n                }\n                if i + 4 > len {\n                    return Ok(Match::NotFound);\n                }\n                match &path[i..i+4] {\n                    b\"edit\" => {\n                        i += 4;\n                    },\n                    _ => return Ok(Match::NotFound),\n                }\n                if i == len {\n                    match method {\n                        b\"GET\" => return Ok(Match::Route(Route::Books(books::Route::Edit(books::Edit {\n                            id,\n                            lang: None,\n                        })))),\n                        _ => return Ok(Match::NotAllowed),\n                    }\n                }\n                match &path[i..i+1] {\n                    b\"/\" => {\n                        i += 1;\n                    },\n                    _ => return Ok(Match::NotFound),\n                }\n                if i == len {\n                    match method {\n                        b\"GET\" => return Ok(Match::Route(Route::Books(books::Route::Edit(books::Edit {\n                            id,\n                            lang: None,\n                        })))),\n                        _ => return Ok(Match::NotAllowed),\n                    }\n                }\n                return Ok(Match::NotFound);\n            },\n            b\"p\" => {\n                i += 1;\n                if i + 5 > len {\n                    return Ok(Match::NotFound);\n                }\n                match &path[i..i+5] {\n                    b\"eople\" => {\n                        i += 5;\n                    },\n                    _ => return Ok(Match::NotFound),\n                }\n                if i == len {\n                    match method {\n                        b\"GET\" => return Ok(Match::Route(Route::People(people::Route::Index(people::Index {\n                            lang: None,\n                        })))),\n                        b\"POST\" => return Ok(Match::Route(Route::People(people::Route::Create(people::Create {\n                            lang: None,\n                        })))),\n                        _ => return Ok(Match::NotAllowed),\n                    }\n                }\n                match &path[i..i+1] {\n                    b\"/\" => {\n                        i += 1;\n                    },\n                    _ => return Ok(Match::NotFound),\n                }\n                if i == len {\n                    match method {\n                        b\"GET\" => return Ok(Match::Route(Route::People(people::Route::Index(people::Index {\n                            lang: None,\n                        })))),\n                        b\"POST\" => return Ok(Match::Route(Route::People(people::Route::Create(people::Create {\n                            lang: None,\n                        })))),\n                        _ => return Ok(Match::NotAllowed),\n                    }\n                }\n\n                let start = i;\n\n                if i + 3 <= len {\n                    match &path[i..i+3] {\n                        b\"new\" => {\n                            i += 3;\n                            if i == len {\n                                match method {\n                                    b\"GET\" => return Ok(Match::Route(Route::People(people::Route::New(people::New {\n                                        lang: None,\n                                    })))),\n                                    _ => return Ok(Match::NotAllowed),\n                                }\n                            }\n                            match &path[i..i+1] {\n                                b\"/\" => {\n                                    i += 1;\n                                },\n                                _ => return Ok(Match::NotFound),\n                            }\n                            if i == len {\n                                match method {\n                                    b\"GET\" => return Ok(Match::Route(Route::People(people::Route::New(people::New {\n                                        lang: None,\n                                    })))),\n                                    _ => return Ok(Match::NotAllowed),\n                                }\n                            }\n                            return Ok(Match::NotFound);\n                        },\n                        _ => {},\n                    }\n                }\n\n                while i < len && &path[i..i+1] != b\"/\" {\n                    i += 1;\n                }\n\n                let text = std::str::from_utf8(&path[start..i]).unwrap();\n                let id = text.parse()\n                    .map_err(|e| Error::fail(\"id\", e))?;\n\n                if i == len {\n                    match method {\n                        b\"GET\" => return Ok(Match::Route(Route::People(people::Route::Show(people::Show {\n                            id,\n                            lang: None,\n                        })))),\n                        b\"PUT\" => return Ok(Match::Route(Route::People(people::Route::Update(people::Update {\n                            id,\n                            lang: None,\n                            name: None,\n                        })))),\n                        b\"DELETE\" => return Ok(Match::Route(Route::People(people::Route::Destroy(people::Destroy {\n                            id,\n                            lang: None,\n                        })))),\n                        _ => return Ok(Match::NotAllowed),\n                    }\n                }\n                match &path[i..i+1] {\n                    b\"/\" => {\n                        i += 1;\n                    },\n                    _ => return Ok(Match::NotFound),\n                }\n                if i == len {\n                    match method {\n                        b\"GET\" => return Ok(Match::Route(Route::People(people::Route::Show(people::Show {\n                            id,\n                            lang: None,\n                        })))),\n                        b\"PUT\" => return Ok(Match::Route(Route::People(people::Route::Update(people::Update {\n                            id,\n                            lang: None,\n                            name: None,\n                        })))),\n                        b\"DELETE\" => return Ok(Match::Route(Route::People(people::Route::Destroy(people::Destroy {\n                            id,\n                            lang: None,\n                        })))),\n                        _ => return Ok(Match::NotAllowed),\n                    }\n                }\n                if i + 4 > len {\n                    return Ok(Match::NotFound);\n                }\n                match &path[i..i+4] {\n                    b\"edit\" => {\n                        i += 4;\n                    },\n                    _ => return Ok(Match::NotFound),\n                }\n                if i == len {\n                    match method {\n                        b\"GET\" => return Ok(Match::Route(Route::People(people::Route::Edit(people::Edit {\n                            id,\n                            lang: None,\n                        })))),\n                        _ => return Ok(Match::NotAllowed),\n                    }\n                }\n                match &path[i..i+1] {\n                    b\"/\" => {\n                        i += 1;\n                    },\n                    _ => return Ok(Match::NotFound),\n                }\n                if i == len {\n                    match method {\n                        b\"GET\" => return Ok(Match::Route(Route::People(people::Route::Edit(people::Edit {\n                            id,\n                            lang: None,\n                        })))),\n                        _ => return Ok(Match::NotAllowed),\n                    }\n                }\n                return Ok(Match::NotFound);\n            },\n            b\"u\" => {\n                i += 1;\n                if i + 4 > len {\n                    return Ok(Match::NotFound);\n                }\n                match &path[i..i+4] {\n                    b\"sers\" => {\n                        i += 4;\n                    },\n                    _ => return Ok(Match::NotFound),\n                }\n                if i == len {\n                    match method {\n                        b\"GET\" => return Ok(Match::Redirect(Route::People(people::Route::Index(people::Index {\n                            lang: None,\n                        })))),\n                        _ => return Ok(Match::NotAllowed),\n                    }\n                }\n                match &path[i..i+1] {\n                    b\"/\" => {\n                        i += 1;\n                    },\n                    _ => return Ok(Match::NotFound),\n                }\n                if i == len {\n                    match method {\n                        b\"GET\" => return Ok(Match::Redirect(Route::People(people::Route::Index(people::Index {\n                            lang: None,\n                        })))),\n                        _ => return Ok(Match::NotAllowed),\n                    }\n                }\n                return Ok(Match::NotFound);\n            },\n            _ => return Ok(Match::NotFound),\n        }\n    }\n\n} // mod routes\n"

#guard pipeline false exampleSrc == some (exampleOut, none)
#guard pipeline true exampleSrc == some (exampleOut, none)

/-- `/repo/wayfinder-tests/cases/nesting/routes.routes` -/
def nestingSrc : String :=
  "use uuid::Uuid;\n\n/\n  GET Index\n\n  {id: Uuid}\n    GET Admin::People::Show\n"

/-- `/repo/wayfinder-tests/cases/nesting/routes.rs` -/
def nestingOut : String :=
  "pub mod routes {\n\n    //! Application route configuration.\n    //!\n    //! Of note is the function [`match_route`] as well as request structs\n    //! specific to each named resource.\n    //!\n    //! Route configuration:\n    //!\n    //! ```ignore\n    //! /\n    //!   GET Index\n    //!   {id: Uuid}\n    //!     GET Admin::People::Show\n    //! ```\n    //!\n    //! [`match_route`]: fn.match_route.html\n\n    #![allow(dead_code)]\n    #![allow(unused_imports)]\n    #![allow(unused_mut)]\n    #![allow(unused_variables)]\n\n    use uuid::Uuid;\n\n    /// Renders for `GET /`.\n    #[derive(Debug, PartialEq, Eq)]\n    pub struct Index;\n\n    impl Index {\n        /// Make a path to this route with the given parameters.\n        pub fn to_path(&self) -> String {\n            format!(\"/\")\n        }\n    }\n\n    pub mod admin {\n        use uuid::Uuid;\n\n        pub mod people {\n            use uuid::Uuid;\n\n            /// Renders for `GET /{id}`.\n            #[derive(Debug, PartialEq, Eq)]\n            pub struct Show {\n                pub id: Uuid,\n            }\n\n            impl Show {\n                /// Make a path to this route with the given parameters.\n                pub fn to_path(&self) -> String {\n                    let Show { ref id, } = self;\n                    format!(\"/{}\", id)\n                }\n            }\n\n            /// Parameters for requests to the people controller.\n            #[derive(Debug, PartialEq, Eq)]\n            pub enum Route {\n                Show(Show),\n            }\n\n            impl Route {\n                /// Make a path to this route with the given parameters.\n                pub fn to_path(&self) -> String {\n                    match self {\n                        Route::Show(ref route) => route.to_path(),\n                    }\n                }\n            }\n        }\n\n        /// Parameters for requests to the admin controller.\n        #[derive(Debug, PartialEq, Eq)]\n        pub enum Route {\n            People(people::Route),\n        }\n\n        impl Route {\n            /// Make a path to this route with the given parameters.\n            pub fn to_path(&self) -> String {\n                match self {\n                    Route::People(ref route) => route.to_path(),\n                }\n            }\n        }\n    }\n\n    /// An active route in the application -- match against this.\n    #[derive(Debug, PartialEq, Eq)]\n    pub enum Route {\n        Index(Index),\n        Admin(admin::Route),\n    }\n\n    impl Route {\n        /// Make a path to this route with the given parameters.\n        pub fn to_path(&self) -> String {\n            match self {\n                Route::Index(ref route) => route.to_path(),\n                Route::Admin(ref route) => route.to_path(),\n            }\n        }\n    }\n\n    #[derive(PartialEq, Eq)]\n    pub enum Match<T> {\n        NotFound,\n        NotAllowed,\n        Route(T),\n        Redirect(T),\n    }\n\n    use std::fmt;\n    impl<T: fmt::Debug> fmt::Debug for Match<T> {\n        fn fmt(&self, f: &mut fmt::Formatter) -> fmt::Result {\n            match self {\n                Match::NotFound => write!(f, \"Match::NotFound\"),\n                Match::NotAllowed => write!(f, \"Match::NotAllowed\"),\n                Match::Route(t) => write!(f, \"Match::Route({:?})\", t),\n                Match::Redirect(t) => write!(f, \"Match::Redirect({:?})\", t),\n            }\n        }\n    }\n\n    pub struct Error {\n        param: String,\n        what: Box<dyn fmt::Debug>,\n    }\n\n    impl fmt::Debug for Error {\n        fn fmt(&self, f: &mut fmt::Formatter) -> fmt::Result {\n            f.debug_struct(\"wayfinder::Error\")\n                .field(\"param\", &self.param)\n                .field(\"what\", &self.what)\n                .finish()\n        }\n    }\n\n    impl fmt::Display for Error {\n        fn fmt(&self, f: &mut fmt::Formatter) -> fmt::Result {\n            write!(\n                f,\n                \"Error parsing '{}' parameter {:?}\",\n                self.param, self.what\n            )\n        }\n    }\n\n    impl std::error::Error for Error {}\n\n    impl Error {\n        pub fn fail<S: AsRef<str>, T: fmt::Debug + 'static>(param: S, what: T) -> Error {\n            Error {\n                param: param.as_ref().to_string(),\n                what: Box::new(what),\n            }\n        }\n    }\n    /// Match a path and method against this router.\n    ///\n    /// Accepts a byte slice for the request path and HTTP verb.\n    /// Returns a `Result`, usually `Ok` with the result of the\n    /// [`Match`].\n    ///\n    /// If the match was successful, it will be a `Match::Route` or\n    /// `Match::Redirect` with the parameters enclosed.  You can then\n    /// match on the [`Route`] to pass control of the request along to\n    /// a specific handler.\n    ///\n    /// If there is no match, this will return `Match::NotFound`\n    /// if no path matches (which you could return as `404 Not Found`),\n    /// or `Match::NotAllowed` if no method matches (in which case a\n    /// `405 Not Allowed` would be appropriate).\n    ///\n    /// If a route parameter fails to parse correctly, this will return\n    /// `Err` with the underlying parsing error.  Usually you'll want\n    /// to send back a `400 Bad Request` for that.\n    ///\n    /// [`Match`]: enum.Match.html\n    /// [`Route`]: enum.Route.html\n    pub fn match_route<P: AsRef<[u8]>, M: AsRef<[u8]>>(\n        path: P,\n        method: M,\n    ) -> Result<Match<Route>, Error> {\n        let method = method.as_ref();\n        let path = path.as_ref();\n        let len = path.len();\n        let mut i = if len > 0 && &path[0..1] == b\"/\" { 1 } else { 0 };\n\n        if i == len {\n            match method {\n                b\"GET\" => return Ok(Match::Route(Route::Index(Index {\n                }))),\n                _ => return Ok(Match::NotAllowed),\n            }\n        }\n        let start = i;\n\n        while i < len && &path[i..i+1] != b\"/\" {\n            i += 1;\n        }\n\n        let text = std::str::from_utf8(&path[start..i]).unwrap();\n        let id = text.parse()\n            .map_err(|e| Error::fail(\"id\", e))?;\n\n        if i == len {\n            match method {\n                b\"GET\" => return Ok(Match::Route(Route::Admin(admin::Route::People(admin::people::Route::Show(admin::people::Show {\n                    id,\n                }))))),\n                _ => return Ok(Match::NotAllowed),\n            }\n        }\n        match &path[i..i+1] {\n            b\"/\" => {\n                i += 1;\n            },\n            _ => return Ok(Match::NotFound),\n        }\n        if i == len {\n            match method {\n                b\"GET\" => return Ok(Match::Route(Route::Admin(admin::Route::People(admin::people::Route::Show(admin::people::Show {\n                    id,\n                }))))),\n                _ => return Ok(Match::NotAllowed),\n            }\n        }\n        return Ok(Match::NotFound);\n    }\n\n} // mod routes\n"

#guard pipeline false nestingSrc == some (nestingOut, none)
#guard pipeline true nestingSrc == some (nestingOut, none)

end Wayfinder.Tests
