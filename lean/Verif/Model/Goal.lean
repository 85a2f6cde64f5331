import Verif.Model.Basic
/-!
# The file of wayfinder-goal (generated by `tools/mkgoal.py`)
-/

namespace Wayfinder

/-- A line: its indentation and what follows. -/
def textLine (n : Nat) (s : Str) : Str := List.replicate n ' ' ++ (s ++ c!"\n")

namespace Goal

/-- `wayfinder-goal/src/routes.rs:1-40` -/
def part1 : List Str := [
  textLine 0 (c!"pub mod routes {"),
  c!"\n",
  textLine 4 (c!"//! Application route configuration."),
  textLine 4 (c!"//!"),
  textLine 4 (c!"//! Of note is the function [`match_rout" ++ c!"e`] as well as request structs"),
  textLine 4 (c!"//! specific to each named resource."),
  textLine 4 (c!"//!"),
  textLine 4 (c!"//! Route configuration:"),
  textLine 4 (c!"//!"),
  textLine 4 (c!"//! ```ignore"),
  textLine 4 (c!"//! /"),
  textLine 4 (c!"//!   [lang: String]"),
  textLine 4 (c!"//!   users"),
  textLine 4 (c!"//!     GET -> People::Index"),
  textLine 4 (c!"//!   people"),
  textLine 4 (c!"//!     GET People::Index"),
  textLine 4 (c!"//!     POST People::Create"),
  textLine 4 (c!"//!     new"),
  textLine 4 (c!"//!       GET People::New"),
  textLine 4 (c!"//!     {id: Uuid}"),
  textLine 4 (c!"//!       GET People::Show"),
  textLine 4 (c!"//!       PUT People::Update"),
  textLine 4 (c!"//!         [name: String]"),
  textLine 4 (c!"//!       DELETE People::Destroy"),
  textLine 4 (c!"//!       edit"),
  textLine 4 (c!"//!         GET People::Edit"),
  textLine 4 (c!"//!   books"),
  textLine 4 (c!"//!     GET Books::Index"),
  textLine 4 (c!"//!     POST Books::Create"),
  textLine 4 (c!"//!     new"),
  textLine 4 (c!"//!       GET Books::New"),
  textLine 4 (c!"//!     {id: Uuid}"),
  textLine 4 (c!"//!       GET Books::Show"),
  textLine 4 (c!"//!       PUT Books::update"),
  textLine 4 (c!"//!       DELETE Books::Destroy"),
  textLine 4 (c!"//!       edit"),
  textLine 4 (c!"//!         GET Books::Edit"),
  textLine 4 (c!"//! ```"),
  textLine 4 (c!"//!"),
  textLine 4 (c!"//! [`match_route`]: fn.match_route.html")]

/-- `wayfinder-goal/src/routes.rs:41-80` -/
def part2 : List Str := [
  c!"\n",
  textLine 4 (c!"#![allow(dead_code)]"),
  textLine 4 (c!"#![allow(unused_imports)]"),
  textLine 4 (c!"#![allow(unused_mut)]"),
  textLine 4 (c!"#![allow(unused_variables)]"),
  c!"\n",
  textLine 4 (c!"use uuid::Uuid;"),
  c!"\n",
  textLine 4 (c!"pub mod books {"),
  textLine 8 (c!"use uuid::Uuid;"),
  c!"\n",
  textLine 8 (c!"/// Renders for `POST /books`."),
  textLine 8 (c!"#[derive(Debug, PartialEq, Eq)]"),
  textLine 8 (c!"pub struct Create {"),
  textLine 12 (c!"pub lang: Option<String>,"),
  textLine 8 (c!"}"),
  c!"\n",
  textLine 8 (c!"impl Create {"),
  textLine 12 (c!"/// Make a path to this route with the g" ++ c!"iven parameters."),
  textLine 12 (c!"pub fn to_path(&self) -> String {"),
  textLine 16 (c!"let Create { ref lang } = self;"),
  textLine 16 (c!"format!(\"/books\")"),
  textLine 12 (c!"}"),
  textLine 8 (c!"}"),
  c!"\n",
  textLine 8 (c!"/// Renders for `DELETE /books/{id}`."),
  textLine 8 (c!"#[derive(Debug, PartialEq, Eq)]"),
  textLine 8 (c!"pub struct Destroy {"),
  textLine 12 (c!"pub id: Uuid,"),
  textLine 12 (c!"pub lang: Option<String>,"),
  textLine 8 (c!"}"),
  c!"\n",
  textLine 8 (c!"impl Destroy {"),
  textLine 12 (c!"/// Make a path to this route with the g" ++ c!"iven parameters."),
  textLine 12 (c!"pub fn to_path(&self) -> String {"),
  textLine 16 (c!"let Destroy { ref id, ref lang } = self;"),
  textLine 16 (c!"format!(\"/books/{}\", id)"),
  textLine 12 (c!"}"),
  textLine 8 (c!"}"),
  c!"\n"]

/-- `wayfinder-goal/src/routes.rs:81-120` -/
def part3 : List Str := [
  textLine 8 (c!"/// Renders for `GET /books/{id}/edit`."),
  textLine 8 (c!"#[derive(Debug, PartialEq, Eq)]"),
  textLine 8 (c!"pub struct Edit {"),
  textLine 12 (c!"pub id: Uuid,"),
  textLine 12 (c!"pub lang: Option<String>,"),
  textLine 8 (c!"}"),
  c!"\n",
  textLine 8 (c!"impl Edit {"),
  textLine 12 (c!"/// Make a path to this route with the g" ++ c!"iven parameters."),
  textLine 12 (c!"pub fn to_path(&self) -> String {"),
  textLine 16 (c!"let Edit { ref id, ref lang } = self;"),
  textLine 16 (c!"format!(\"/books/{}/edit\", id)"),
  textLine 12 (c!"}"),
  textLine 8 (c!"}"),
  c!"\n",
  textLine 8 (c!"/// Renders for `GET /books`."),
  textLine 8 (c!"#[derive(Debug, PartialEq, Eq)]"),
  textLine 8 (c!"pub struct Index {"),
  textLine 12 (c!"pub lang: Option<String>,"),
  textLine 8 (c!"}"),
  c!"\n",
  textLine 8 (c!"impl Index {"),
  textLine 12 (c!"/// Make a path to this route with the g" ++ c!"iven parameters."),
  textLine 12 (c!"pub fn to_path(&self) -> String {"),
  textLine 16 (c!"let Index { ref lang } = self;"),
  textLine 16 (c!"format!(\"/books\")"),
  textLine 12 (c!"}"),
  textLine 8 (c!"}"),
  c!"\n",
  textLine 8 (c!"/// Renders for `GET /books/new`."),
  textLine 8 (c!"#[derive(Debug, PartialEq, Eq)]"),
  textLine 8 (c!"pub struct New {"),
  textLine 12 (c!"pub lang: Option<String>,"),
  textLine 8 (c!"}"),
  c!"\n",
  textLine 8 (c!"impl New {"),
  textLine 12 (c!"/// Make a path to this route with the g" ++ c!"iven parameters."),
  textLine 12 (c!"pub fn to_path(&self) -> String {"),
  textLine 16 (c!"let New { ref lang } = self;"),
  textLine 16 (c!"format!(\"/books/new\")")]

/-- `wayfinder-goal/src/routes.rs:121-160` -/
def part4 : List Str := [
  textLine 12 (c!"}"),
  textLine 8 (c!"}"),
  c!"\n",
  textLine 8 (c!"/// Renders for `GET /books/{id}`."),
  textLine 8 (c!"#[derive(Debug, PartialEq, Eq)]"),
  textLine 8 (c!"pub struct Show {"),
  textLine 12 (c!"pub id: Uuid,"),
  textLine 12 (c!"pub lang: Option<String>,"),
  textLine 8 (c!"}"),
  c!"\n",
  textLine 8 (c!"impl Show {"),
  textLine 12 (c!"/// Make a path to this route with the g" ++ c!"iven parameters."),
  textLine 12 (c!"pub fn to_path(&self) -> String {"),
  textLine 16 (c!"let Show { ref id, ref lang } = self;"),
  textLine 16 (c!"format!(\"/books/{}\", id)"),
  textLine 12 (c!"}"),
  textLine 8 (c!"}"),
  c!"\n",
  textLine 8 (c!"/// Renders for `PUT /books/{id}`."),
  textLine 8 (c!"#[derive(Debug, PartialEq, Eq)]"),
  textLine 8 (c!"pub struct Update {"),
  textLine 12 (c!"pub id: Uuid,"),
  textLine 12 (c!"pub lang: Option<String>,"),
  textLine 8 (c!"}"),
  c!"\n",
  textLine 8 (c!"impl Update {"),
  textLine 12 (c!"/// Make a path to this route with the g" ++ c!"iven parameters."),
  textLine 12 (c!"pub fn to_path(&self) -> String {"),
  textLine 16 (c!"let Update { ref id, ref lang } = self;"),
  textLine 16 (c!"format!(\"/books/{}\", id)"),
  textLine 12 (c!"}"),
  textLine 8 (c!"}"),
  c!"\n",
  textLine 8 (c!"/// Parameters for requests to the books" ++ c!" controller."),
  textLine 8 (c!"#[derive(Debug, PartialEq, Eq)]"),
  textLine 8 (c!"pub enum Route {"),
  textLine 12 (c!"Create(Create),"),
  textLine 12 (c!"Destroy(Destroy),"),
  textLine 12 (c!"Edit(Edit),"),
  textLine 12 (c!"Index(Index),")]

/-- `wayfinder-goal/src/routes.rs:161-200` -/
def part5 : List Str := [
  textLine 12 (c!"New(New),"),
  textLine 12 (c!"Show(Show),"),
  textLine 12 (c!"Update(Update),"),
  textLine 8 (c!"}"),
  c!"\n",
  textLine 8 (c!"impl Route {"),
  textLine 12 (c!"/// Make a path to this route with the g" ++ c!"iven parameters."),
  textLine 12 (c!"pub fn to_path(&self) -> String {"),
  textLine 16 (c!"match self {"),
  textLine 20 (c!"Route::Create(ref route) => route.to_pat" ++ c!"h(),"),
  textLine 20 (c!"Route::Destroy(ref route) => route.to_pa" ++ c!"th(),"),
  textLine 20 (c!"Route::Edit(ref route) => route.to_path(" ++ c!"),"),
  textLine 20 (c!"Route::Index(ref route) => route.to_path" ++ c!"(),"),
  textLine 20 (c!"Route::New(ref route) => route.to_path()" ++ c!","),
  textLine 20 (c!"Route::Show(ref route) => route.to_path(" ++ c!"),"),
  textLine 20 (c!"Route::Update(ref route) => route.to_pat" ++ c!"h(),"),
  textLine 16 (c!"}"),
  textLine 12 (c!"}"),
  textLine 8 (c!"}"),
  textLine 4 (c!"}"),
  c!"\n",
  textLine 4 (c!"pub mod people {"),
  textLine 8 (c!"use uuid::Uuid;"),
  c!"\n",
  textLine 8 (c!"/// Renders for `POST /people`."),
  textLine 8 (c!"#[derive(Debug, PartialEq, Eq)]"),
  textLine 8 (c!"pub struct Create {"),
  textLine 12 (c!"pub lang: Option<String>,"),
  textLine 8 (c!"}"),
  c!"\n",
  textLine 8 (c!"impl Create {"),
  textLine 12 (c!"/// Make a path to this route with the g" ++ c!"iven parameters."),
  textLine 12 (c!"pub fn to_path(&self) -> String {"),
  textLine 16 (c!"let Create { ref lang } = self;"),
  textLine 16 (c!"format!(\"/people\")"),
  textLine 12 (c!"}"),
  textLine 8 (c!"}"),
  c!"\n",
  textLine 8 (c!"/// Renders for `DELETE /people/{id}`."),
  textLine 8 (c!"#[derive(Debug, PartialEq, Eq)]")]

/-- `wayfinder-goal/src/routes.rs:201-240` -/
def part6 : List Str := [
  textLine 8 (c!"pub struct Destroy {"),
  textLine 12 (c!"pub id: Uuid,"),
  textLine 12 (c!"pub lang: Option<String>,"),
  textLine 8 (c!"}"),
  c!"\n",
  textLine 8 (c!"impl Destroy {"),
  textLine 12 (c!"/// Make a path to this route with the g" ++ c!"iven parameters."),
  textLine 12 (c!"pub fn to_path(&self) -> String {"),
  textLine 16 (c!"let Destroy { ref id, ref lang } = self;"),
  textLine 16 (c!"format!(\"/people/{}\", id)"),
  textLine 12 (c!"}"),
  textLine 8 (c!"}"),
  c!"\n",
  textLine 8 (c!"/// Renders for `GET /people/{id}/edit`."),
  textLine 8 (c!"#[derive(Debug, PartialEq, Eq)]"),
  textLine 8 (c!"pub struct Edit {"),
  textLine 12 (c!"pub id: Uuid,"),
  textLine 12 (c!"pub lang: Option<String>,"),
  textLine 8 (c!"}"),
  c!"\n",
  textLine 8 (c!"impl Edit {"),
  textLine 12 (c!"/// Make a path to this route with the g" ++ c!"iven parameters."),
  textLine 12 (c!"pub fn to_path(&self) -> String {"),
  textLine 16 (c!"let Edit { ref id, ref lang } = self;"),
  textLine 16 (c!"format!(\"/people/{}/edit\", id)"),
  textLine 12 (c!"}"),
  textLine 8 (c!"}"),
  c!"\n",
  textLine 8 (c!"/// Renders for `GET /people`."),
  textLine 8 (c!"#[derive(Debug, PartialEq, Eq)]"),
  textLine 8 (c!"pub struct Index {"),
  textLine 12 (c!"pub lang: Option<String>,"),
  textLine 8 (c!"}"),
  c!"\n",
  textLine 8 (c!"impl Index {"),
  textLine 12 (c!"/// Make a path to this route with the g" ++ c!"iven parameters."),
  textLine 12 (c!"pub fn to_path(&self) -> String {"),
  textLine 16 (c!"let Index { ref lang } = self;"),
  textLine 16 (c!"format!(\"/people\")"),
  textLine 12 (c!"}")]

/-- `wayfinder-goal/src/routes.rs:241-280` -/
def part7 : List Str := [
  textLine 8 (c!"}"),
  c!"\n",
  textLine 8 (c!"/// Renders for `GET /people/new`."),
  textLine 8 (c!"#[derive(Debug, PartialEq, Eq)]"),
  textLine 8 (c!"pub struct New {"),
  textLine 12 (c!"pub lang: Option<String>,"),
  textLine 8 (c!"}"),
  c!"\n",
  textLine 8 (c!"impl New {"),
  textLine 12 (c!"/// Make a path to this route with the g" ++ c!"iven parameters."),
  textLine 12 (c!"pub fn to_path(&self) -> String {"),
  textLine 16 (c!"let New { ref lang } = self;"),
  textLine 16 (c!"format!(\"/people/new\")"),
  textLine 12 (c!"}"),
  textLine 8 (c!"}"),
  c!"\n",
  textLine 8 (c!"/// Renders for `GET /people/{id}`."),
  textLine 8 (c!"#[derive(Debug, PartialEq, Eq)]"),
  textLine 8 (c!"pub struct Show {"),
  textLine 12 (c!"pub id: Uuid,"),
  textLine 12 (c!"pub lang: Option<String>,"),
  textLine 8 (c!"}"),
  c!"\n",
  textLine 8 (c!"impl Show {"),
  textLine 12 (c!"/// Make a path to this route with the g" ++ c!"iven parameters."),
  textLine 12 (c!"pub fn to_path(&self) -> String {"),
  textLine 16 (c!"let Show { ref id, ref lang } = self;"),
  textLine 16 (c!"format!(\"/people/{}\", id)"),
  textLine 12 (c!"}"),
  textLine 8 (c!"}"),
  c!"\n",
  textLine 8 (c!"/// Renders for `PUT /people/{id}`."),
  textLine 8 (c!"#[derive(Debug, PartialEq, Eq)]"),
  textLine 8 (c!"pub struct Update {"),
  textLine 12 (c!"pub id: Uuid,"),
  textLine 12 (c!"pub lang: Option<String>,"),
  textLine 12 (c!"pub name: Option<String>,"),
  textLine 8 (c!"}"),
  c!"\n",
  textLine 8 (c!"impl Update {")]

/-- `wayfinder-goal/src/routes.rs:281-320` -/
def part8 : List Str := [
  textLine 12 (c!"/// Make a path to this route with the g" ++ c!"iven parameters."),
  textLine 12 (c!"pub fn to_path(&self) -> String {"),
  textLine 16 (c!"let Update {"),
  textLine 20 (c!"ref id,"),
  textLine 20 (c!"ref lang,"),
  textLine 20 (c!"ref name,"),
  textLine 16 (c!"} = self;"),
  textLine 16 (c!"format!(\"/people/{}\", id)"),
  textLine 12 (c!"}"),
  textLine 8 (c!"}"),
  c!"\n",
  textLine 8 (c!"/// Parameters for requests to the peopl" ++ c!"e controller."),
  textLine 8 (c!"#[derive(Debug, PartialEq, Eq)]"),
  textLine 8 (c!"pub enum Route {"),
  textLine 12 (c!"Create(Create),"),
  textLine 12 (c!"Destroy(Destroy),"),
  textLine 12 (c!"Edit(Edit),"),
  textLine 12 (c!"Index(Index),"),
  textLine 12 (c!"New(New),"),
  textLine 12 (c!"Show(Show),"),
  textLine 12 (c!"Update(Update),"),
  textLine 8 (c!"}"),
  c!"\n",
  textLine 8 (c!"impl Route {"),
  textLine 12 (c!"/// Make a path to this route with the g" ++ c!"iven parameters."),
  textLine 12 (c!"pub fn to_path(&self) -> String {"),
  textLine 16 (c!"match self {"),
  textLine 20 (c!"Route::Create(ref route) => route.to_pat" ++ c!"h(),"),
  textLine 20 (c!"Route::Destroy(ref route) => route.to_pa" ++ c!"th(),"),
  textLine 20 (c!"Route::Edit(ref route) => route.to_path(" ++ c!"),"),
  textLine 20 (c!"Route::Index(ref route) => route.to_path" ++ c!"(),"),
  textLine 20 (c!"Route::New(ref route) => route.to_path()" ++ c!","),
  textLine 20 (c!"Route::Show(ref route) => route.to_path(" ++ c!"),"),
  textLine 20 (c!"Route::Update(ref route) => route.to_pat" ++ c!"h(),"),
  textLine 16 (c!"}"),
  textLine 12 (c!"}"),
  textLine 8 (c!"}"),
  textLine 4 (c!"}"),
  c!"\n",
  textLine 4 (c!"/// An active route in the application -" ++ c!"- match against this.")]

/-- `wayfinder-goal/src/routes.rs:321-360` -/
def part9 : List Str := [
  textLine 4 (c!"#[derive(Debug, PartialEq, Eq)]"),
  textLine 4 (c!"pub enum Route {"),
  textLine 8 (c!"Books(books::Route),"),
  textLine 8 (c!"People(people::Route),"),
  textLine 4 (c!"}"),
  c!"\n",
  textLine 4 (c!"impl Route {"),
  textLine 8 (c!"/// Make a path to this route with the g" ++ c!"iven parameters."),
  textLine 8 (c!"pub fn to_path(&self) -> String {"),
  textLine 12 (c!"match self {"),
  textLine 16 (c!"Route::Books(ref route) => route.to_path" ++ c!"(),"),
  textLine 16 (c!"Route::People(ref route) => route.to_pat" ++ c!"h(),"),
  textLine 12 (c!"}"),
  textLine 8 (c!"}"),
  textLine 4 (c!"}"),
  c!"\n",
  textLine 4 (c!"#[derive(PartialEq, Eq)]"),
  textLine 4 (c!"pub enum Match<T> {"),
  textLine 8 (c!"NotFound,"),
  textLine 8 (c!"NotAllowed,"),
  textLine 8 (c!"Route(T),"),
  textLine 8 (c!"Redirect(T),"),
  textLine 4 (c!"}"),
  c!"\n",
  textLine 4 (c!"use std::fmt;"),
  textLine 4 (c!"impl<T: fmt::Debug> fmt::Debug for Match" ++ c!"<T> {"),
  textLine 8 (c!"fn fmt(&self, f: &mut fmt::Formatter) ->" ++ c!" fmt::Result {"),
  textLine 12 (c!"match self {"),
  textLine 16 (c!"Match::NotFound => write!(f, \"Match::Not" ++ c!"Found\"),"),
  textLine 16 (c!"Match::NotAllowed => write!(f, \"Match::N" ++ c!"otAllowed\"),"),
  textLine 16 (c!"Match::Route(t) => write!(f, \"Match::Rou" ++ c!"te({:?})\", t),"),
  textLine 16 (c!"Match::Redirect(t) => write!(f, \"Match::" ++ c!"Redirect({:?})\", t),"),
  textLine 12 (c!"}"),
  textLine 8 (c!"}"),
  textLine 4 (c!"}"),
  c!"\n",
  textLine 4 (c!"pub struct Error {"),
  textLine 8 (c!"param: String,"),
  textLine 8 (c!"what: Box<dyn fmt::Debug>,"),
  textLine 4 (c!"}")]

/-- `wayfinder-goal/src/routes.rs:361-400` -/
def part10 : List Str := [
  c!"\n",
  textLine 4 (c!"impl fmt::Debug for Error {"),
  textLine 8 (c!"fn fmt(&self, f: &mut fmt::Formatter) ->" ++ c!" fmt::Result {"),
  textLine 12 (c!"f.debug_struct(\"wayfinder::Error\")"),
  textLine 16 (c!".field(\"param\", &self.param)"),
  textLine 16 (c!".field(\"what\", &self.what)"),
  textLine 16 (c!".finish()"),
  textLine 8 (c!"}"),
  textLine 4 (c!"}"),
  c!"\n",
  textLine 4 (c!"impl fmt::Display for Error {"),
  textLine 8 (c!"fn fmt(&self, f: &mut fmt::Formatter) ->" ++ c!" fmt::Result {"),
  textLine 12 (c!"write!("),
  textLine 16 (c!"f,"),
  textLine 16 (c!"\"Error parsing '{}' parameter {:?}\","),
  textLine 16 (c!"self.param, self.what"),
  textLine 12 (c!")"),
  textLine 8 (c!"}"),
  textLine 4 (c!"}"),
  c!"\n",
  textLine 4 (c!"impl std::error::Error for Error {}"),
  c!"\n",
  textLine 4 (c!"impl Error {"),
  textLine 8 (c!"pub fn fail<S: AsRef<str>, T: fmt::Debug" ++ c!" + 'static>(param: S, what: T) -> Error " ++ c!"{"),
  textLine 12 (c!"Error {"),
  textLine 16 (c!"param: param.as_ref().to_string(),"),
  textLine 16 (c!"what: Box::new(what),"),
  textLine 12 (c!"}"),
  textLine 8 (c!"}"),
  textLine 4 (c!"}"),
  textLine 4 (c!"/// Match a path and method against this" ++ c!" router."),
  textLine 4 (c!"///"),
  textLine 4 (c!"/// Accepts a byte slice for the request" ++ c!" path and HTTP verb."),
  textLine 4 (c!"/// Returns a `Result`, usually `Ok` wit" ++ c!"h the result of the"),
  textLine 4 (c!"/// [`Match`]."),
  textLine 4 (c!"///"),
  textLine 4 (c!"/// If the match was successful, it will" ++ c!" be a `Match::Route` or"),
  textLine 4 (c!"/// `Match::Redirect` with the parameter" ++ c!"s enclosed.  You can then"),
  textLine 4 (c!"/// match on the [`Route`] to pass contr" ++ c!"ol of the request along to"),
  textLine 4 (c!"/// a specific handler.")]

/-- `wayfinder-goal/src/routes.rs:401-440` -/
def part11 : List Str := [
  textLine 4 (c!"///"),
  textLine 4 (c!"/// If there is no match, this will retu" ++ c!"rn `Match::NotFound`"),
  textLine 4 (c!"/// if no path matches (which you could " ++ c!"return as `404 Not Found`),"),
  textLine 4 (c!"/// or `Match::NotAllowed` if no method " ++ c!"matches (in which case a"),
  textLine 4 (c!"/// `405 Not Allowed` would be appropria" ++ c!"te)."),
  textLine 4 (c!"///"),
  textLine 4 (c!"/// If a route parameter fails to parse " ++ c!"correctly, this will return"),
  textLine 4 (c!"/// `Err` with the underlying parsing er" ++ c!"ror.  Usually you'll want"),
  textLine 4 (c!"/// to send back a `400 Bad Request` for" ++ c!" that."),
  textLine 4 (c!"///"),
  textLine 4 (c!"/// [`Match`]: enum.Match.html"),
  textLine 4 (c!"/// [`Route`]: enum.Route.html"),
  textLine 4 (c!"pub fn match_route<P: AsRef<[u8]>, M: As" ++ c!"Ref<[u8]>>("),
  textLine 8 (c!"path: P,"),
  textLine 8 (c!"method: M,"),
  textLine 4 (c!") -> Result<Match<Route>, Error> {"),
  textLine 8 (c!"let method = method.as_ref();"),
  textLine 8 (c!"let path = path.as_ref();"),
  textLine 8 (c!"let len = path.len();"),
  textLine 8 (c!"let mut i = if len > 0 && &path[0..1] ==" ++ c!" b\"/\" { 1 } else { 0 };"),
  c!"\n",
  textLine 8 (c!"if i == len {"),
  textLine 12 (c!"return Ok(Match::NotFound);"),
  textLine 8 (c!"}"),
  textLine 8 (c!"match &path[i..i + 1] {"),
  textLine 12 (c!"b\"b\" => {"),
  textLine 16 (c!"i += 1;"),
  textLine 16 (c!"if i + 4 > len {"),
  textLine 20 (c!"return Ok(Match::NotFound);"),
  textLine 16 (c!"}"),
  textLine 16 (c!"match &path[i..i + 4] {"),
  textLine 20 (c!"b\"ooks\" => {"),
  textLine 24 (c!"i += 4;"),
  textLine 20 (c!"}"),
  textLine 20 (c!"_ => return Ok(Match::NotFound),"),
  textLine 16 (c!"}"),
  textLine 16 (c!"if i == len {"),
  textLine 20 (c!"match method {"),
  textLine 24 (c!"b\"GET\" => {"),
  textLine 28 (c!"return Ok(Match::Route(Route::Books(book" ++ c!"s::Route::Index(")]

/-- `wayfinder-goal/src/routes.rs:441-480` -/
def part12 : List Str := [
  textLine 32 (c!"books::Index { lang: None },"),
  textLine 28 (c!"))))"),
  textLine 24 (c!"}"),
  textLine 24 (c!"b\"POST\" => {"),
  textLine 28 (c!"return Ok(Match::Route(Route::Books(book" ++ c!"s::Route::Create("),
  textLine 32 (c!"books::Create { lang: None },"),
  textLine 28 (c!"))))"),
  textLine 24 (c!"}"),
  textLine 24 (c!"_ => return Ok(Match::NotAllowed),"),
  textLine 20 (c!"}"),
  textLine 16 (c!"}"),
  textLine 16 (c!"match &path[i..i + 1] {"),
  textLine 20 (c!"b\"/\" => {"),
  textLine 24 (c!"i += 1;"),
  textLine 20 (c!"}"),
  textLine 20 (c!"_ => return Ok(Match::NotFound),"),
  textLine 16 (c!"}"),
  textLine 16 (c!"if i == len {"),
  textLine 20 (c!"match method {"),
  textLine 24 (c!"b\"GET\" => {"),
  textLine 28 (c!"return Ok(Match::Route(Route::Books(book" ++ c!"s::Route::Index("),
  textLine 32 (c!"books::Index { lang: None },"),
  textLine 28 (c!"))))"),
  textLine 24 (c!"}"),
  textLine 24 (c!"b\"POST\" => {"),
  textLine 28 (c!"return Ok(Match::Route(Route::Books(book" ++ c!"s::Route::Create("),
  textLine 32 (c!"books::Create { lang: None },"),
  textLine 28 (c!"))))"),
  textLine 24 (c!"}"),
  textLine 24 (c!"_ => return Ok(Match::NotAllowed),"),
  textLine 20 (c!"}"),
  textLine 16 (c!"}"),
  c!"\n",
  textLine 16 (c!"let start = i;"),
  c!"\n",
  textLine 16 (c!"if i + 3 <= len {"),
  textLine 20 (c!"match &path[i..i + 3] {"),
  textLine 24 (c!"b\"new\" => {"),
  textLine 28 (c!"i += 3;"),
  textLine 28 (c!"if i == len {")]

/-- `wayfinder-goal/src/routes.rs:481-520` -/
def part13 : List Str := [
  textLine 32 (c!"match method {"),
  textLine 36 (c!"b\"GET\" => {"),
  textLine 40 (c!"return Ok(Match::Route(Route::Books(book" ++ c!"s::Route::New("),
  textLine 44 (c!"books::New { lang: None },"),
  textLine 40 (c!"))))"),
  textLine 36 (c!"}"),
  textLine 36 (c!"_ => return Ok(Match::NotAllowed),"),
  textLine 32 (c!"}"),
  textLine 28 (c!"}"),
  textLine 28 (c!"match &path[i..i + 1] {"),
  textLine 32 (c!"b\"/\" => {"),
  textLine 36 (c!"i += 1;"),
  textLine 32 (c!"}"),
  textLine 32 (c!"_ => return Ok(Match::NotFound),"),
  textLine 28 (c!"}"),
  textLine 28 (c!"if i == len {"),
  textLine 32 (c!"match method {"),
  textLine 36 (c!"b\"GET\" => {"),
  textLine 40 (c!"return Ok(Match::Route(Route::Books(book" ++ c!"s::Route::New("),
  textLine 44 (c!"books::New { lang: None },"),
  textLine 40 (c!"))))"),
  textLine 36 (c!"}"),
  textLine 36 (c!"_ => return Ok(Match::NotAllowed),"),
  textLine 32 (c!"}"),
  textLine 28 (c!"}"),
  textLine 28 (c!"return Ok(Match::NotFound);"),
  textLine 24 (c!"}"),
  textLine 24 (c!"_ => {}"),
  textLine 20 (c!"}"),
  textLine 16 (c!"}"),
  c!"\n",
  textLine 16 (c!"while i < len && &path[i..i + 1] != b\"/\"" ++ c!" {"),
  textLine 20 (c!"i += 1;"),
  textLine 16 (c!"}"),
  c!"\n",
  textLine 16 (c!"let text = std::str::from_utf8(&path[sta" ++ c!"rt..i]).unwrap();"),
  textLine 16 (c!"let id = text.parse().map_err(|e| Error:" ++ c!":fail(\"id\", e))?;"),
  c!"\n",
  textLine 16 (c!"if i == len {"),
  textLine 20 (c!"match method {")]

/-- `wayfinder-goal/src/routes.rs:521-560` -/
def part14 : List Str := [
  textLine 24 (c!"b\"GET\" => {"),
  textLine 28 (c!"return Ok(Match::Route(Route::Books(book" ++ c!"s::Route::Show("),
  textLine 32 (c!"books::Show { id, lang: None },"),
  textLine 28 (c!"))))"),
  textLine 24 (c!"}"),
  textLine 24 (c!"b\"PUT\" => {"),
  textLine 28 (c!"return Ok(Match::Route(Route::Books(book" ++ c!"s::Route::Update("),
  textLine 32 (c!"books::Update { id, lang: None },"),
  textLine 28 (c!"))))"),
  textLine 24 (c!"}"),
  textLine 24 (c!"b\"DELETE\" => {"),
  textLine 28 (c!"return Ok(Match::Route(Route::Books(book" ++ c!"s::Route::Destroy("),
  textLine 32 (c!"books::Destroy { id, lang: None },"),
  textLine 28 (c!"))))"),
  textLine 24 (c!"}"),
  textLine 24 (c!"_ => return Ok(Match::NotAllowed),"),
  textLine 20 (c!"}"),
  textLine 16 (c!"}"),
  textLine 16 (c!"match &path[i..i + 1] {"),
  textLine 20 (c!"b\"/\" => {"),
  textLine 24 (c!"i += 1;"),
  textLine 20 (c!"}"),
  textLine 20 (c!"_ => return Ok(Match::NotFound),"),
  textLine 16 (c!"}"),
  textLine 16 (c!"if i == len {"),
  textLine 20 (c!"match method {"),
  textLine 24 (c!"b\"GET\" => {"),
  textLine 28 (c!"return Ok(Match::Route(Route::Books(book" ++ c!"s::Route::Show("),
  textLine 32 (c!"books::Show { id, lang: None },"),
  textLine 28 (c!"))))"),
  textLine 24 (c!"}"),
  textLine 24 (c!"b\"PUT\" => {"),
  textLine 28 (c!"return Ok(Match::Route(Route::Books(book" ++ c!"s::Route::Update("),
  textLine 32 (c!"books::Update { id, lang: None },"),
  textLine 28 (c!"))))"),
  textLine 24 (c!"}"),
  textLine 24 (c!"b\"DELETE\" => {"),
  textLine 28 (c!"return Ok(Match::Route(Route::Books(book" ++ c!"s::Route::Destroy("),
  textLine 32 (c!"books::Destroy { id, lang: None },"),
  textLine 28 (c!"))))")]

/-- `wayfinder-goal/src/routes.rs:561-600` -/
def part15 : List Str := [
  textLine 24 (c!"}"),
  textLine 24 (c!"_ => return Ok(Match::NotAllowed),"),
  textLine 20 (c!"}"),
  textLine 16 (c!"}"),
  textLine 16 (c!"if i + 4 > len {"),
  textLine 20 (c!"return Ok(Match::NotFound);"),
  textLine 16 (c!"}"),
  textLine 16 (c!"match &path[i..i + 4] {"),
  textLine 20 (c!"b\"edit\" => {"),
  textLine 24 (c!"i += 4;"),
  textLine 20 (c!"}"),
  textLine 20 (c!"_ => return Ok(Match::NotFound),"),
  textLine 16 (c!"}"),
  textLine 16 (c!"if i == len {"),
  textLine 20 (c!"match method {"),
  textLine 24 (c!"b\"GET\" => {"),
  textLine 28 (c!"return Ok(Match::Route(Route::Books(book" ++ c!"s::Route::Edit("),
  textLine 32 (c!"books::Edit { id, lang: None },"),
  textLine 28 (c!"))))"),
  textLine 24 (c!"}"),
  textLine 24 (c!"_ => return Ok(Match::NotAllowed),"),
  textLine 20 (c!"}"),
  textLine 16 (c!"}"),
  textLine 16 (c!"match &path[i..i + 1] {"),
  textLine 20 (c!"b\"/\" => {"),
  textLine 24 (c!"i += 1;"),
  textLine 20 (c!"}"),
  textLine 20 (c!"_ => return Ok(Match::NotFound),"),
  textLine 16 (c!"}"),
  textLine 16 (c!"if i == len {"),
  textLine 20 (c!"match method {"),
  textLine 24 (c!"b\"GET\" => {"),
  textLine 28 (c!"return Ok(Match::Route(Route::Books(book" ++ c!"s::Route::Edit("),
  textLine 32 (c!"books::Edit { id, lang: None },"),
  textLine 28 (c!"))))"),
  textLine 24 (c!"}"),
  textLine 24 (c!"_ => return Ok(Match::NotAllowed),"),
  textLine 20 (c!"}"),
  textLine 16 (c!"}"),
  textLine 16 (c!"return Ok(Match::NotFound);")]

/-- `wayfinder-goal/src/routes.rs:601-640` -/
def part16 : List Str := [
  textLine 12 (c!"}"),
  textLine 12 (c!"b\"p\" => {"),
  textLine 16 (c!"i += 1;"),
  textLine 16 (c!"if i + 5 > len {"),
  textLine 20 (c!"return Ok(Match::NotFound);"),
  textLine 16 (c!"}"),
  textLine 16 (c!"match &path[i..i + 5] {"),
  textLine 20 (c!"b\"eople\" => {"),
  textLine 24 (c!"i += 5;"),
  textLine 20 (c!"}"),
  textLine 20 (c!"_ => return Ok(Match::NotFound),"),
  textLine 16 (c!"}"),
  textLine 16 (c!"if i == len {"),
  textLine 20 (c!"match method {"),
  textLine 24 (c!"b\"GET\" => {"),
  textLine 28 (c!"return Ok(Match::Route(Route::People(peo" ++ c!"ple::Route::Index("),
  textLine 32 (c!"people::Index { lang: None },"),
  textLine 28 (c!"))))"),
  textLine 24 (c!"}"),
  textLine 24 (c!"b\"POST\" => {"),
  textLine 28 (c!"return Ok(Match::Route(Route::People(peo" ++ c!"ple::Route::Create("),
  textLine 32 (c!"people::Create { lang: None },"),
  textLine 28 (c!"))))"),
  textLine 24 (c!"}"),
  textLine 24 (c!"_ => return Ok(Match::NotAllowed),"),
  textLine 20 (c!"}"),
  textLine 16 (c!"}"),
  textLine 16 (c!"match &path[i..i + 1] {"),
  textLine 20 (c!"b\"/\" => {"),
  textLine 24 (c!"i += 1;"),
  textLine 20 (c!"}"),
  textLine 20 (c!"_ => return Ok(Match::NotFound),"),
  textLine 16 (c!"}"),
  textLine 16 (c!"if i == len {"),
  textLine 20 (c!"match method {"),
  textLine 24 (c!"b\"GET\" => {"),
  textLine 28 (c!"return Ok(Match::Route(Route::People(peo" ++ c!"ple::Route::Index("),
  textLine 32 (c!"people::Index { lang: None },"),
  textLine 28 (c!"))))"),
  textLine 24 (c!"}")]

/-- `wayfinder-goal/src/routes.rs:641-680` -/
def part17 : List Str := [
  textLine 24 (c!"b\"POST\" => {"),
  textLine 28 (c!"return Ok(Match::Route(Route::People(peo" ++ c!"ple::Route::Create("),
  textLine 32 (c!"people::Create { lang: None },"),
  textLine 28 (c!"))))"),
  textLine 24 (c!"}"),
  textLine 24 (c!"_ => return Ok(Match::NotAllowed),"),
  textLine 20 (c!"}"),
  textLine 16 (c!"}"),
  c!"\n",
  textLine 16 (c!"let start = i;"),
  c!"\n",
  textLine 16 (c!"if i + 3 <= len {"),
  textLine 20 (c!"match &path[i..i + 3] {"),
  textLine 24 (c!"b\"new\" => {"),
  textLine 28 (c!"i += 3;"),
  textLine 28 (c!"if i == len {"),
  textLine 32 (c!"match method {"),
  textLine 36 (c!"b\"GET\" => {"),
  textLine 40 (c!"return Ok(Match::Route(Route::People(peo" ++ c!"ple::Route::New("),
  textLine 44 (c!"people::New { lang: None },"),
  textLine 40 (c!"))))"),
  textLine 36 (c!"}"),
  textLine 36 (c!"_ => return Ok(Match::NotAllowed),"),
  textLine 32 (c!"}"),
  textLine 28 (c!"}"),
  textLine 28 (c!"match &path[i..i + 1] {"),
  textLine 32 (c!"b\"/\" => {"),
  textLine 36 (c!"i += 1;"),
  textLine 32 (c!"}"),
  textLine 32 (c!"_ => return Ok(Match::NotFound),"),
  textLine 28 (c!"}"),
  textLine 28 (c!"if i == len {"),
  textLine 32 (c!"match method {"),
  textLine 36 (c!"b\"GET\" => {"),
  textLine 40 (c!"return Ok(Match::Route(Route::People(peo" ++ c!"ple::Route::New("),
  textLine 44 (c!"people::New { lang: None },"),
  textLine 40 (c!"))))"),
  textLine 36 (c!"}"),
  textLine 36 (c!"_ => return Ok(Match::NotAllowed),"),
  textLine 32 (c!"}")]

/-- `wayfinder-goal/src/routes.rs:681-720` -/
def part18 : List Str := [
  textLine 28 (c!"}"),
  textLine 28 (c!"return Ok(Match::NotFound);"),
  textLine 24 (c!"}"),
  textLine 24 (c!"_ => {}"),
  textLine 20 (c!"}"),
  textLine 16 (c!"}"),
  c!"\n",
  textLine 16 (c!"while i < len && &path[i..i + 1] != b\"/\"" ++ c!" {"),
  textLine 20 (c!"i += 1;"),
  textLine 16 (c!"}"),
  c!"\n",
  textLine 16 (c!"let text = std::str::from_utf8(&path[sta" ++ c!"rt..i]).unwrap();"),
  textLine 16 (c!"let id = text.parse().map_err(|e| Error:" ++ c!":fail(\"id\", e))?;"),
  c!"\n",
  textLine 16 (c!"if i == len {"),
  textLine 20 (c!"match method {"),
  textLine 24 (c!"b\"GET\" => {"),
  textLine 28 (c!"return Ok(Match::Route(Route::People(peo" ++ c!"ple::Route::Show("),
  textLine 32 (c!"people::Show { id, lang: None },"),
  textLine 28 (c!"))))"),
  textLine 24 (c!"}"),
  textLine 24 (c!"b\"PUT\" => {"),
  textLine 28 (c!"return Ok(Match::Route(Route::People(peo" ++ c!"ple::Route::Update("),
  textLine 32 (c!"people::Update {"),
  textLine 36 (c!"id,"),
  textLine 36 (c!"lang: None,"),
  textLine 36 (c!"name: None,"),
  textLine 32 (c!"},"),
  textLine 28 (c!"))))"),
  textLine 24 (c!"}"),
  textLine 24 (c!"b\"DELETE\" => {"),
  textLine 28 (c!"return Ok(Match::Route(Route::People(peo" ++ c!"ple::Route::Destroy("),
  textLine 32 (c!"people::Destroy { id, lang: None },"),
  textLine 28 (c!"))))"),
  textLine 24 (c!"}"),
  textLine 24 (c!"_ => return Ok(Match::NotAllowed),"),
  textLine 20 (c!"}"),
  textLine 16 (c!"}"),
  textLine 16 (c!"match &path[i..i + 1] {"),
  textLine 20 (c!"b\"/\" => {")]

/-- `wayfinder-goal/src/routes.rs:721-760` -/
def part19 : List Str := [
  textLine 24 (c!"i += 1;"),
  textLine 20 (c!"}"),
  textLine 20 (c!"_ => return Ok(Match::NotFound),"),
  textLine 16 (c!"}"),
  textLine 16 (c!"if i == len {"),
  textLine 20 (c!"match method {"),
  textLine 24 (c!"b\"GET\" => {"),
  textLine 28 (c!"return Ok(Match::Route(Route::People(peo" ++ c!"ple::Route::Show("),
  textLine 32 (c!"people::Show { id, lang: None },"),
  textLine 28 (c!"))))"),
  textLine 24 (c!"}"),
  textLine 24 (c!"b\"PUT\" => {"),
  textLine 28 (c!"return Ok(Match::Route(Route::People(peo" ++ c!"ple::Route::Update("),
  textLine 32 (c!"people::Update {"),
  textLine 36 (c!"id,"),
  textLine 36 (c!"lang: None,"),
  textLine 36 (c!"name: None,"),
  textLine 32 (c!"},"),
  textLine 28 (c!"))))"),
  textLine 24 (c!"}"),
  textLine 24 (c!"b\"DELETE\" => {"),
  textLine 28 (c!"return Ok(Match::Route(Route::People(peo" ++ c!"ple::Route::Destroy("),
  textLine 32 (c!"people::Destroy { id, lang: None },"),
  textLine 28 (c!"))))"),
  textLine 24 (c!"}"),
  textLine 24 (c!"_ => return Ok(Match::NotAllowed),"),
  textLine 20 (c!"}"),
  textLine 16 (c!"}"),
  textLine 16 (c!"if i + 4 > len {"),
  textLine 20 (c!"return Ok(Match::NotFound);"),
  textLine 16 (c!"}"),
  textLine 16 (c!"match &path[i..i + 4] {"),
  textLine 20 (c!"b\"edit\" => {"),
  textLine 24 (c!"i += 4;"),
  textLine 20 (c!"}"),
  textLine 20 (c!"_ => return Ok(Match::NotFound),"),
  textLine 16 (c!"}"),
  textLine 16 (c!"if i == len {"),
  textLine 20 (c!"match method {"),
  textLine 24 (c!"b\"GET\" => {")]

/-- `wayfinder-goal/src/routes.rs:761-800` -/
def part20 : List Str := [
  textLine 28 (c!"return Ok(Match::Route(Route::People(peo" ++ c!"ple::Route::Edit("),
  textLine 32 (c!"people::Edit { id, lang: None },"),
  textLine 28 (c!"))))"),
  textLine 24 (c!"}"),
  textLine 24 (c!"_ => return Ok(Match::NotAllowed),"),
  textLine 20 (c!"}"),
  textLine 16 (c!"}"),
  textLine 16 (c!"match &path[i..i + 1] {"),
  textLine 20 (c!"b\"/\" => {"),
  textLine 24 (c!"i += 1;"),
  textLine 20 (c!"}"),
  textLine 20 (c!"_ => return Ok(Match::NotFound),"),
  textLine 16 (c!"}"),
  textLine 16 (c!"if i == len {"),
  textLine 20 (c!"match method {"),
  textLine 24 (c!"b\"GET\" => {"),
  textLine 28 (c!"return Ok(Match::Route(Route::People(peo" ++ c!"ple::Route::Edit("),
  textLine 32 (c!"people::Edit { id, lang: None },"),
  textLine 28 (c!"))))"),
  textLine 24 (c!"}"),
  textLine 24 (c!"_ => return Ok(Match::NotAllowed),"),
  textLine 20 (c!"}"),
  textLine 16 (c!"}"),
  textLine 16 (c!"return Ok(Match::NotFound);"),
  textLine 12 (c!"}"),
  textLine 12 (c!"b\"u\" => {"),
  textLine 16 (c!"i += 1;"),
  textLine 16 (c!"if i + 4 > len {"),
  textLine 20 (c!"return Ok(Match::NotFound);"),
  textLine 16 (c!"}"),
  textLine 16 (c!"match &path[i..i + 4] {"),
  textLine 20 (c!"b\"sers\" => {"),
  textLine 24 (c!"i += 4;"),
  textLine 20 (c!"}"),
  textLine 20 (c!"_ => return Ok(Match::NotFound),"),
  textLine 16 (c!"}"),
  textLine 16 (c!"if i == len {"),
  textLine 20 (c!"match method {"),
  textLine 24 (c!"b\"GET\" => {"),
  textLine 28 (c!"return Ok(Match::Redirect(Route::People(" ++ c!"people::Route::Index(")]

/-- `wayfinder-goal/src/routes.rs:801-828` -/
def part21 : List Str := [
  textLine 32 (c!"people::Index { lang: None },"),
  textLine 28 (c!"))))"),
  textLine 24 (c!"}"),
  textLine 24 (c!"_ => return Ok(Match::NotAllowed),"),
  textLine 20 (c!"}"),
  textLine 16 (c!"}"),
  textLine 16 (c!"match &path[i..i + 1] {"),
  textLine 20 (c!"b\"/\" => {"),
  textLine 24 (c!"i += 1;"),
  textLine 20 (c!"}"),
  textLine 20 (c!"_ => return Ok(Match::NotFound),"),
  textLine 16 (c!"}"),
  textLine 16 (c!"if i == len {"),
  textLine 20 (c!"match method {"),
  textLine 24 (c!"b\"GET\" => {"),
  textLine 28 (c!"return Ok(Match::Redirect(Route::People(" ++ c!"people::Route::Index("),
  textLine 32 (c!"people::Index { lang: None },"),
  textLine 28 (c!"))))"),
  textLine 24 (c!"}"),
  textLine 24 (c!"_ => return Ok(Match::NotAllowed),"),
  textLine 20 (c!"}"),
  textLine 16 (c!"}"),
  textLine 16 (c!"return Ok(Match::NotFound);"),
  textLine 12 (c!"}"),
  textLine 12 (c!"_ => return Ok(Match::NotFound),"),
  textLine 8 (c!"}"),
  textLine 4 (c!"}"),
  textLine 0 (c!"} // mod routes")]

/-- `wayfinder-goal/src/routes.rs` -/
def text : Str :=
  (part1 ++ part2 ++ part3 ++ part4 ++ part5 ++ part6 ++ part7 ++ part8 ++ part9 ++ part10 ++ part11 ++ part12 ++ part13 ++ part14 ++ part15 ++ part16 ++ part17 ++ part18 ++ part19 ++ part20 ++ part21).flatten

/-- `wayfinder-tests/cases/example/routes.routes` -/
def source : Str :=
  c!"use uuid::Uuid;\n" ++
  c!"\n" ++
  c!"/\n" ++
  c!"  [lang: String]\n" ++
  c!"\n" ++
  c!"  users\n" ++
  c!"    GET -> People::Index\n" ++
  c!"\n" ++
  c!"  people\n" ++
  c!"    GET People::Index\n" ++
  c!"    POST People::Create\n" ++
  c!"\n" ++
  c!"    new\n" ++
  c!"      GET People::New\n" ++
  c!"\n" ++
  c!"    {id: Uuid}\n" ++
  c!"      GET People::Show\n" ++
  c!"      PUT People::Update\n" ++
  c!"        [name: String]\n" ++
  c!"      DELETE People::Destroy\n" ++
  c!"\n" ++
  c!"      edit\n" ++
  c!"        GET People::Edit\n" ++
  c!"\n" ++
  c!"  books\n" ++
  c!"    GET Books::Index\n" ++
  c!"    POST Books::Create\n" ++
  c!"\n" ++
  c!"    new\n" ++
  c!"      GET Books::New\n" ++
  c!"\n" ++
  c!"    {id: Uuid}\n" ++
  c!"      GET Books::Show\n" ++
  c!"      PUT Books::update\n" ++
  c!"      DELETE Books::Destroy\n" ++
  c!"\n" ++
  c!"      edit\n" ++
  c!"        GET Books::Edit\n"

end Goal
end Wayfinder
