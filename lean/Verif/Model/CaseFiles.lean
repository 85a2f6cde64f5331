import Verif.Model.Goal
/-!
# The expected files of the golden tests (generated by `tools/mkgoal.py`)
-/

namespace Wayfinder.Cases

/-- `wayfinder-tests/cases/commons/routes.rs:1-40` -/
def commons1 : List Str := [
  textLine 0 (c!"pub mod routes {"),
  c!"\n",
  textLine 4 (c!"//! Application route configuration."),
  textLine 4 (c!"//!"),
  textLine 4 (c!"//! Of note is the function [`match_rout" ++ c!"e`] as well as request structs"),
  textLine 4 (c!"//! specific to each named resource."),
  textLine 4 (c!"//!"),
  textLine 4 (c!"//! Route configuration:"),
  textLine 4 (c!"//!"),
  textLine 4 (c!"//! ```ignore"),
  textLine 4 (c!"//! /"),
  textLine 4 (c!"//!   foobar"),
  textLine 4 (c!"//!     GET Foo::Bar"),
  textLine 4 (c!"//!   fomo"),
  textLine 4 (c!"//!     GET Fomo::AsUsual"),
  textLine 4 (c!"//!   foosh"),
  textLine 4 (c!"//!     GET Foosh::Ball"),
  textLine 4 (c!"//!   {a: String}"),
  textLine 4 (c!"//!     GET Bar::Dyn"),
  textLine 4 (c!"//! ```"),
  textLine 4 (c!"//!"),
  textLine 4 (c!"//! [`match_route`]: fn.match_route.html"),
  c!"\n",
  textLine 4 (c!"#![allow(dead_code)]"),
  textLine 4 (c!"#![allow(unused_imports)]"),
  textLine 4 (c!"#![allow(unused_mut)]"),
  textLine 4 (c!"#![allow(unused_variables)]"),
  c!"\n",
  textLine 4 (c!"pub mod bar {"),
  textLine 8 (c!"/// Renders for `GET /{a}`."),
  textLine 8 (c!"#[derive(Debug, PartialEq, Eq)]"),
  textLine 8 (c!"pub struct Dyn {"),
  textLine 12 (c!"pub a: String,"),
  textLine 8 (c!"}"),
  c!"\n",
  textLine 8 (c!"impl Dyn {"),
  textLine 12 (c!"/// Make a path to this route with the g" ++ c!"iven parameters."),
  textLine 12 (c!"pub fn to_path(&self) -> String {"),
  textLine 16 (c!"let Dyn { ref a, } = self;"),
  textLine 16 (c!"format!(\"/{}\", a)")]

/-- `wayfinder-tests/cases/commons/routes.rs:41-80` -/
def commons2 : List Str := [
  textLine 12 (c!"}"),
  textLine 8 (c!"}"),
  c!"\n",
  textLine 8 (c!"/// Parameters for requests to the bar c" ++ c!"ontroller."),
  textLine 8 (c!"#[derive(Debug, PartialEq, Eq)]"),
  textLine 8 (c!"pub enum Route {"),
  textLine 12 (c!"Dyn(Dyn),"),
  textLine 8 (c!"}"),
  c!"\n",
  textLine 8 (c!"impl Route {"),
  textLine 12 (c!"/// Make a path to this route with the g" ++ c!"iven parameters."),
  textLine 12 (c!"pub fn to_path(&self) -> String {"),
  textLine 16 (c!"match self {"),
  textLine 20 (c!"Route::Dyn(ref route) => route.to_path()" ++ c!","),
  textLine 16 (c!"}"),
  textLine 12 (c!"}"),
  textLine 8 (c!"}"),
  textLine 4 (c!"}"),
  c!"\n",
  textLine 4 (c!"pub mod fomo {"),
  textLine 8 (c!"/// Renders for `GET /fomo`."),
  textLine 8 (c!"#[derive(Debug, PartialEq, Eq)]"),
  textLine 8 (c!"pub struct AsUsual;"),
  c!"\n",
  textLine 8 (c!"impl AsUsual {"),
  textLine 12 (c!"/// Make a path to this route with the g" ++ c!"iven parameters."),
  textLine 12 (c!"pub fn to_path(&self) -> String {"),
  textLine 16 (c!"format!(\"/fomo\")"),
  textLine 12 (c!"}"),
  textLine 8 (c!"}"),
  c!"\n",
  textLine 8 (c!"/// Parameters for requests to the fomo " ++ c!"controller."),
  textLine 8 (c!"#[derive(Debug, PartialEq, Eq)]"),
  textLine 8 (c!"pub enum Route {"),
  textLine 12 (c!"AsUsual(AsUsual),"),
  textLine 8 (c!"}"),
  c!"\n",
  textLine 8 (c!"impl Route {"),
  textLine 12 (c!"/// Make a path to this route with the g" ++ c!"iven parameters."),
  textLine 12 (c!"pub fn to_path(&self) -> String {")]

/-- `wayfinder-tests/cases/commons/routes.rs:81-120` -/
def commons3 : List Str := [
  textLine 16 (c!"match self {"),
  textLine 20 (c!"Route::AsUsual(ref route) => route.to_pa" ++ c!"th(),"),
  textLine 16 (c!"}"),
  textLine 12 (c!"}"),
  textLine 8 (c!"}"),
  textLine 4 (c!"}"),
  c!"\n",
  textLine 4 (c!"pub mod foo {"),
  textLine 8 (c!"/// Renders for `GET /foobar`."),
  textLine 8 (c!"#[derive(Debug, PartialEq, Eq)]"),
  textLine 8 (c!"pub struct Bar;"),
  c!"\n",
  textLine 8 (c!"impl Bar {"),
  textLine 12 (c!"/// Make a path to this route with the g" ++ c!"iven parameters."),
  textLine 12 (c!"pub fn to_path(&self) -> String {"),
  textLine 16 (c!"format!(\"/foobar\")"),
  textLine 12 (c!"}"),
  textLine 8 (c!"}"),
  c!"\n",
  textLine 8 (c!"/// Parameters for requests to the foo c" ++ c!"ontroller."),
  textLine 8 (c!"#[derive(Debug, PartialEq, Eq)]"),
  textLine 8 (c!"pub enum Route {"),
  textLine 12 (c!"Bar(Bar),"),
  textLine 8 (c!"}"),
  c!"\n",
  textLine 8 (c!"impl Route {"),
  textLine 12 (c!"/// Make a path to this route with the g" ++ c!"iven parameters."),
  textLine 12 (c!"pub fn to_path(&self) -> String {"),
  textLine 16 (c!"match self {"),
  textLine 20 (c!"Route::Bar(ref route) => route.to_path()" ++ c!","),
  textLine 16 (c!"}"),
  textLine 12 (c!"}"),
  textLine 8 (c!"}"),
  textLine 4 (c!"}"),
  c!"\n",
  textLine 4 (c!"pub mod foosh {"),
  textLine 8 (c!"/// Renders for `GET /foosh`."),
  textLine 8 (c!"#[derive(Debug, PartialEq, Eq)]"),
  textLine 8 (c!"pub struct Ball;"),
  c!"\n"]

/-- `wayfinder-tests/cases/commons/routes.rs:121-160` -/
def commons4 : List Str := [
  textLine 8 (c!"impl Ball {"),
  textLine 12 (c!"/// Make a path to this route with the g" ++ c!"iven parameters."),
  textLine 12 (c!"pub fn to_path(&self) -> String {"),
  textLine 16 (c!"format!(\"/foosh\")"),
  textLine 12 (c!"}"),
  textLine 8 (c!"}"),
  c!"\n",
  textLine 8 (c!"/// Parameters for requests to the foosh" ++ c!" controller."),
  textLine 8 (c!"#[derive(Debug, PartialEq, Eq)]"),
  textLine 8 (c!"pub enum Route {"),
  textLine 12 (c!"Ball(Ball),"),
  textLine 8 (c!"}"),
  c!"\n",
  textLine 8 (c!"impl Route {"),
  textLine 12 (c!"/// Make a path to this route with the g" ++ c!"iven parameters."),
  textLine 12 (c!"pub fn to_path(&self) -> String {"),
  textLine 16 (c!"match self {"),
  textLine 20 (c!"Route::Ball(ref route) => route.to_path(" ++ c!"),"),
  textLine 16 (c!"}"),
  textLine 12 (c!"}"),
  textLine 8 (c!"}"),
  textLine 4 (c!"}"),
  c!"\n",
  textLine 4 (c!"/// An active route in the application -" ++ c!"- match against this."),
  textLine 4 (c!"#[derive(Debug, PartialEq, Eq)]"),
  textLine 4 (c!"pub enum Route {"),
  textLine 8 (c!"Bar(bar::Route),"),
  textLine 8 (c!"Fomo(fomo::Route),"),
  textLine 8 (c!"Foo(foo::Route),"),
  textLine 8 (c!"Foosh(foosh::Route),"),
  textLine 4 (c!"}"),
  c!"\n",
  textLine 4 (c!"impl Route {"),
  textLine 8 (c!"/// Make a path to this route with the g" ++ c!"iven parameters."),
  textLine 8 (c!"pub fn to_path(&self) -> String {"),
  textLine 12 (c!"match self {"),
  textLine 16 (c!"Route::Bar(ref route) => route.to_path()" ++ c!","),
  textLine 16 (c!"Route::Fomo(ref route) => route.to_path(" ++ c!"),"),
  textLine 16 (c!"Route::Foo(ref route) => route.to_path()" ++ c!","),
  textLine 16 (c!"Route::Foosh(ref route) => route.to_path" ++ c!"(),")]

/-- `wayfinder-tests/cases/commons/routes.rs:161-200` -/
def commons5 : List Str := [
  textLine 12 (c!"}"),
  textLine 8 (c!"}"),
  textLine 4 (c!"}"),
  c!"\n",
  textLine 4 (c!"#[derive(PartialEq, Eq)]"),
  textLine 4 (c!"pub enum Match<T> {"),
  textLine 8 (c!"NotFound,"),
  textLine 8 (c!"NotAllowed,"),
  textLine 8 (c!"Route(T),"),
  textLine 8 (c!"Redirect(T),"),
  textLine 4 (c!"}"),
  c!"\n",
  textLine 4 (c!"use std::fmt;"),
  textLine 4 (c!"impl<T: fmt::Debug> fmt::Debug for Match" ++ c!"<T> {"),
  textLine 8 (c!"fn fmt(&self, f: &mut fmt::Formatter) ->" ++ c!" fmt::Result {"),
  textLine 12 (c!"match self {"),
  textLine 16 (c!"Match::NotFound => write!(f, \"Match::Not" ++ c!"Found\"),"),
  textLine 16 (c!"Match::NotAllowed => write!(f, \"Match::N" ++ c!"otAllowed\"),"),
  textLine 16 (c!"Match::Route(t) => write!(f, \"Match::Rou" ++ c!"te({:?})\", t),"),
  textLine 16 (c!"Match::Redirect(t) => write!(f, \"Match::" ++ c!"Redirect({:?})\", t),"),
  textLine 12 (c!"}"),
  textLine 8 (c!"}"),
  textLine 4 (c!"}"),
  c!"\n",
  textLine 4 (c!"pub struct Error {"),
  textLine 8 (c!"param: String,"),
  textLine 8 (c!"what: Box<dyn fmt::Debug>,"),
  textLine 4 (c!"}"),
  c!"\n",
  textLine 4 (c!"impl fmt::Debug for Error {"),
  textLine 8 (c!"fn fmt(&self, f: &mut fmt::Formatter) ->" ++ c!" fmt::Result {"),
  textLine 12 (c!"f.debug_struct(\"wayfinder::Error\")"),
  textLine 16 (c!".field(\"param\", &self.param)"),
  textLine 16 (c!".field(\"what\", &self.what)"),
  textLine 16 (c!".finish()"),
  textLine 8 (c!"}"),
  textLine 4 (c!"}"),
  c!"\n",
  textLine 4 (c!"impl fmt::Display for Error {"),
  textLine 8 (c!"fn fmt(&self, f: &mut fmt::Formatter) ->" ++ c!" fmt::Result {")]

/-- `wayfinder-tests/cases/commons/routes.rs:201-240` -/
def commons6 : List Str := [
  textLine 12 (c!"write!("),
  textLine 16 (c!"f,"),
  textLine 16 (c!"\"Error parsing '{}' parameter {:?}\","),
  textLine 16 (c!"self.param, self.what"),
  textLine 12 (c!")"),
  textLine 8 (c!"}"),
  textLine 4 (c!"}"),
  c!"\n",
  textLine 4 (c!"impl std::error::Error for Error {}"),
  c!"\n",
  textLine 4 (c!"impl Error {"),
  textLine 8 (c!"pub fn fail<S: AsRef<str>, T: fmt::Debug" ++ c!" + 'static>(param: S, what: T) -> Error " ++ c!"{"),
  textLine 12 (c!"Error {"),
  textLine 16 (c!"param: param.as_ref().to_string(),"),
  textLine 16 (c!"what: Box::new(what),"),
  textLine 12 (c!"}"),
  textLine 8 (c!"}"),
  textLine 4 (c!"}"),
  textLine 4 (c!"/// Match a path and method against this" ++ c!" router."),
  textLine 4 (c!"///"),
  textLine 4 (c!"/// Accepts a byte slice for the request" ++ c!" path and HTTP verb."),
  textLine 4 (c!"/// Returns a `Result`, usually `Ok` wit" ++ c!"h the result of the"),
  textLine 4 (c!"/// [`Match`]."),
  textLine 4 (c!"///"),
  textLine 4 (c!"/// If the match was successful, it will" ++ c!" be a `Match::Route` or"),
  textLine 4 (c!"/// `Match::Redirect` with the parameter" ++ c!"s enclosed.  You can then"),
  textLine 4 (c!"/// match on the [`Route`] to pass contr" ++ c!"ol of the request along to"),
  textLine 4 (c!"/// a specific handler."),
  textLine 4 (c!"///"),
  textLine 4 (c!"/// If there is no match, this will retu" ++ c!"rn `Match::NotFound`"),
  textLine 4 (c!"/// if no path matches (which you could " ++ c!"return as `404 Not Found`),"),
  textLine 4 (c!"/// or `Match::NotAllowed` if no method " ++ c!"matches (in which case a"),
  textLine 4 (c!"/// `405 Not Allowed` would be appropria" ++ c!"te)."),
  textLine 4 (c!"///"),
  textLine 4 (c!"/// If a route parameter fails to parse " ++ c!"correctly, this will return"),
  textLine 4 (c!"/// `Err` with the underlying parsing er" ++ c!"ror.  Usually you'll want"),
  textLine 4 (c!"/// to send back a `400 Bad Request` for" ++ c!" that."),
  textLine 4 (c!"///"),
  textLine 4 (c!"/// [`Match`]: enum.Match.html"),
  textLine 4 (c!"/// [`Route`]: enum.Route.html")]

/-- `wayfinder-tests/cases/commons/routes.rs:241-280` -/
def commons7 : List Str := [
  textLine 4 (c!"pub fn match_route<P: AsRef<[u8]>, M: As" ++ c!"Ref<[u8]>>("),
  textLine 8 (c!"path: P,"),
  textLine 8 (c!"method: M,"),
  textLine 4 (c!") -> Result<Match<Route>, Error> {"),
  textLine 8 (c!"let method = method.as_ref();"),
  textLine 8 (c!"let path = path.as_ref();"),
  textLine 8 (c!"let len = path.len();"),
  textLine 8 (c!"let mut i = if len > 0 && &path[0..1] ==" ++ c!" b\"/\" { 1 } else { 0 };"),
  c!"\n",
  c!"\n",
  textLine 8 (c!"let start = i;"),
  c!"\n",
  textLine 8 (c!"if i + 3 <= len {"),
  textLine 12 (c!"match &path[i..i+3] {"),
  textLine 16 (c!"b\"fo\" => {"),
  textLine 20 (c!"i += 3;"),
  textLine 20 (c!"if i == len {"),
  textLine 24 (c!"return Ok(Match::NotFound);"),
  textLine 20 (c!"}"),
  textLine 20 (c!"match &path[i..i+1] {"),
  textLine 24 (c!"b\"m\" => {"),
  textLine 28 (c!"i += 1;"),
  textLine 28 (c!"if i == len {"),
  textLine 32 (c!"return Ok(Match::NotFound);"),
  textLine 28 (c!"}"),
  textLine 28 (c!"match &path[i..i+1] {"),
  textLine 32 (c!"b\"o\" => {"),
  textLine 36 (c!"i += 1;"),
  textLine 32 (c!"},"),
  textLine 32 (c!"_ => return Ok(Match::NotFound),"),
  textLine 28 (c!"}"),
  textLine 28 (c!"if i == len {"),
  textLine 32 (c!"match method {"),
  textLine 36 (c!"b\"GET\" => return Ok(Match::Route(Route::" ++ c!"Fomo(fomo::Route::AsUsual(fomo::AsUsual " ++ c!"{"),
  textLine 36 (c!"})))),"),
  textLine 36 (c!"_ => return Ok(Match::NotAllowed),"),
  textLine 32 (c!"}"),
  textLine 28 (c!"}"),
  textLine 28 (c!"match &path[i..i+1] {"),
  textLine 32 (c!"b\"/\" => {")]

/-- `wayfinder-tests/cases/commons/routes.rs:281-320` -/
def commons8 : List Str := [
  textLine 36 (c!"i += 1;"),
  textLine 32 (c!"},"),
  textLine 32 (c!"_ => return Ok(Match::NotFound),"),
  textLine 28 (c!"}"),
  textLine 28 (c!"if i == len {"),
  textLine 32 (c!"match method {"),
  textLine 36 (c!"b\"GET\" => return Ok(Match::Route(Route::" ++ c!"Fomo(fomo::Route::AsUsual(fomo::AsUsual " ++ c!"{"),
  textLine 36 (c!"})))),"),
  textLine 36 (c!"_ => return Ok(Match::NotAllowed),"),
  textLine 32 (c!"}"),
  textLine 28 (c!"}"),
  textLine 28 (c!"return Ok(Match::NotFound);"),
  textLine 24 (c!"},"),
  textLine 24 (c!"b\"o\" => {"),
  textLine 28 (c!"i += 1;"),
  textLine 28 (c!"if i == len {"),
  textLine 32 (c!"return Ok(Match::NotFound);"),
  textLine 28 (c!"}"),
  textLine 28 (c!"match &path[i..i+1] {"),
  textLine 32 (c!"b\"b\" => {"),
  textLine 36 (c!"i += 1;"),
  textLine 36 (c!"if i + 2 > len {"),
  textLine 40 (c!"return Ok(Match::NotFound);"),
  textLine 36 (c!"}"),
  textLine 36 (c!"match &path[i..i+2] {"),
  textLine 40 (c!"b\"ar\" => {"),
  textLine 44 (c!"i += 2;"),
  textLine 40 (c!"},"),
  textLine 40 (c!"_ => return Ok(Match::NotFound),"),
  textLine 36 (c!"}"),
  textLine 36 (c!"if i == len {"),
  textLine 40 (c!"match method {"),
  textLine 44 (c!"b\"GET\" => return Ok(Match::Route(Route::" ++ c!"Foo(foo::Route::Bar(foo::Bar {"),
  textLine 44 (c!"})))),"),
  textLine 44 (c!"_ => return Ok(Match::NotAllowed),"),
  textLine 40 (c!"}"),
  textLine 36 (c!"}"),
  textLine 36 (c!"match &path[i..i+1] {"),
  textLine 40 (c!"b\"/\" => {"),
  textLine 44 (c!"i += 1;")]

/-- `wayfinder-tests/cases/commons/routes.rs:321-360` -/
def commons9 : List Str := [
  textLine 40 (c!"},"),
  textLine 40 (c!"_ => return Ok(Match::NotFound),"),
  textLine 36 (c!"}"),
  textLine 36 (c!"if i == len {"),
  textLine 40 (c!"match method {"),
  textLine 44 (c!"b\"GET\" => return Ok(Match::Route(Route::" ++ c!"Foo(foo::Route::Bar(foo::Bar {"),
  textLine 44 (c!"})))),"),
  textLine 44 (c!"_ => return Ok(Match::NotAllowed),"),
  textLine 40 (c!"}"),
  textLine 36 (c!"}"),
  textLine 36 (c!"return Ok(Match::NotFound);"),
  textLine 32 (c!"},"),
  textLine 32 (c!"b\"s\" => {"),
  textLine 36 (c!"i += 1;"),
  textLine 36 (c!"if i == len {"),
  textLine 40 (c!"return Ok(Match::NotFound);"),
  textLine 36 (c!"}"),
  textLine 36 (c!"match &path[i..i+1] {"),
  textLine 40 (c!"b\"h\" => {"),
  textLine 44 (c!"i += 1;"),
  textLine 40 (c!"},"),
  textLine 40 (c!"_ => return Ok(Match::NotFound),"),
  textLine 36 (c!"}"),
  textLine 36 (c!"if i == len {"),
  textLine 40 (c!"match method {"),
  textLine 44 (c!"b\"GET\" => return Ok(Match::Route(Route::" ++ c!"Foosh(foosh::Route::Ball(foosh::Ball {"),
  textLine 44 (c!"})))),"),
  textLine 44 (c!"_ => return Ok(Match::NotAllowed),"),
  textLine 40 (c!"}"),
  textLine 36 (c!"}"),
  textLine 36 (c!"match &path[i..i+1] {"),
  textLine 40 (c!"b\"/\" => {"),
  textLine 44 (c!"i += 1;"),
  textLine 40 (c!"},"),
  textLine 40 (c!"_ => return Ok(Match::NotFound),"),
  textLine 36 (c!"}"),
  textLine 36 (c!"if i == len {"),
  textLine 40 (c!"match method {"),
  textLine 44 (c!"b\"GET\" => return Ok(Match::Route(Route::" ++ c!"Foosh(foosh::Route::Ball(foosh::Ball {"),
  textLine 44 (c!"})))),")]

/-- `wayfinder-tests/cases/commons/routes.rs:361-400` -/
def commons10 : List Str := [
  textLine 44 (c!"_ => return Ok(Match::NotAllowed),"),
  textLine 40 (c!"}"),
  textLine 36 (c!"}"),
  textLine 36 (c!"return Ok(Match::NotFound);"),
  textLine 32 (c!"},"),
  textLine 32 (c!"_ => return Ok(Match::NotFound),"),
  textLine 28 (c!"}"),
  textLine 24 (c!"},"),
  textLine 24 (c!"_ => return Ok(Match::NotFound),"),
  textLine 20 (c!"}"),
  textLine 16 (c!"},"),
  textLine 16 (c!"_ => {},"),
  textLine 12 (c!"}"),
  textLine 8 (c!"}"),
  c!"\n",
  textLine 8 (c!"while i < len && &path[i..i+1] != b\"/\" {"),
  textLine 12 (c!"i += 1;"),
  textLine 8 (c!"}"),
  c!"\n",
  textLine 8 (c!"let text = std::str::from_utf8(&path[sta" ++ c!"rt..i]).unwrap();"),
  textLine 8 (c!"let a = text.parse()"),
  textLine 12 (c!".map_err(|e| Error::fail(\"a\", e))?;"),
  c!"\n",
  textLine 8 (c!"if i == len {"),
  textLine 12 (c!"match method {"),
  textLine 16 (c!"b\"GET\" => return Ok(Match::Route(Route::" ++ c!"Bar(bar::Route::Dyn(bar::Dyn {"),
  textLine 20 (c!"a,"),
  textLine 16 (c!"})))),"),
  textLine 16 (c!"_ => return Ok(Match::NotAllowed),"),
  textLine 12 (c!"}"),
  textLine 8 (c!"}"),
  textLine 8 (c!"match &path[i..i+1] {"),
  textLine 12 (c!"b\"/\" => {"),
  textLine 16 (c!"i += 1;"),
  textLine 12 (c!"},"),
  textLine 12 (c!"_ => return Ok(Match::NotFound),"),
  textLine 8 (c!"}"),
  textLine 8 (c!"if i == len {"),
  textLine 12 (c!"match method {"),
  textLine 16 (c!"b\"GET\" => return Ok(Match::Route(Route::" ++ c!"Bar(bar::Route::Dyn(bar::Dyn {")]

/-- `wayfinder-tests/cases/commons/routes.rs:401-409` -/
def commons11 : List Str := [
  textLine 20 (c!"a,"),
  textLine 16 (c!"})))),"),
  textLine 16 (c!"_ => return Ok(Match::NotAllowed),"),
  textLine 12 (c!"}"),
  textLine 8 (c!"}"),
  textLine 8 (c!"return Ok(Match::NotFound);"),
  textLine 4 (c!"}"),
  c!"\n",
  textLine 0 (c!"} // mod routes")]

/-- `wayfinder-tests/cases/commons/routes.rs` -/
def commonsRs : Str :=
  (commons1 ++ commons2 ++ commons3 ++ commons4 ++ commons5 ++ commons6 ++ commons7 ++ commons8 ++ commons9 ++ commons10 ++ commons11).flatten

/-- `wayfinder-tests/cases/example/routes.rs:1-40` -/
def example1 : List Str := [
  textLine 0 (c!"pub mod routes {"),
  c!"\n",
  textLine 4 (c!"//! Application route configuration."),
  textLine 4 (c!"//!"),
  textLine 4 (c!"//! Of note is the function [`match_rout" ++ c!"e`] as well as request structs"),
  textLine 4 (c!"//! specific to each named resource."),
  textLine 4 (c!"//!"),
  textLine 4 (c!"//! Route configuration:"),
  textLine 4 (c!"//!"),
  textLine 4 (c!"//! ```ignore"),
  textLine 4 (c!"//! /"),
  textLine 4 (c!"//!   [lang: String]"),
  textLine 4 (c!"//!   users"),
  textLine 4 (c!"//!     GET -> People::Index"),
  textLine 4 (c!"//!   people"),
  textLine 4 (c!"//!     GET People::Index"),
  textLine 4 (c!"//!     POST People::Create"),
  textLine 4 (c!"//!     new"),
  textLine 4 (c!"//!       GET People::New"),
  textLine 4 (c!"//!     {id: Uuid}"),
  textLine 4 (c!"//!       GET People::Show"),
  textLine 4 (c!"//!       PUT People::Update"),
  textLine 4 (c!"//!         [name: String]"),
  textLine 4 (c!"//!       DELETE People::Destroy"),
  textLine 4 (c!"//!       edit"),
  textLine 4 (c!"//!         GET People::Edit"),
  textLine 4 (c!"//!   books"),
  textLine 4 (c!"//!     GET Books::Index"),
  textLine 4 (c!"//!     POST Books::Create"),
  textLine 4 (c!"//!     new"),
  textLine 4 (c!"//!       GET Books::New"),
  textLine 4 (c!"//!     {id: Uuid}"),
  textLine 4 (c!"//!       GET Books::Show"),
  textLine 4 (c!"//!       PUT Books::update"),
  textLine 4 (c!"//!       DELETE Books::Destroy"),
  textLine 4 (c!"//!       edit"),
  textLine 4 (c!"//!         GET Books::Edit"),
  textLine 4 (c!"//! ```"),
  textLine 4 (c!"//!"),
  textLine 4 (c!"//! [`match_route`]: fn.match_route.html")]

/-- `wayfinder-tests/cases/example/routes.rs:41-80` -/
def example2 : List Str := [
  c!"\n",
  textLine 4 (c!"#![allow(dead_code)]"),
  textLine 4 (c!"#![allow(unused_imports)]"),
  textLine 4 (c!"#![allow(unused_mut)]"),
  textLine 4 (c!"#![allow(unused_variables)]"),
  c!"\n",
  textLine 4 (c!"use uuid::Uuid;"),
  c!"\n",
  textLine 4 (c!"pub mod books {"),
  textLine 8 (c!"use uuid::Uuid;"),
  c!"\n",
  textLine 8 (c!"/// Renders for `POST /books`."),
  textLine 8 (c!"#[derive(Debug, PartialEq, Eq)]"),
  textLine 8 (c!"pub struct Create {"),
  textLine 12 (c!"pub lang: Option<String>,"),
  textLine 8 (c!"}"),
  c!"\n",
  textLine 8 (c!"impl Create {"),
  textLine 12 (c!"/// Make a path to this route with the g" ++ c!"iven parameters."),
  textLine 12 (c!"pub fn to_path(&self) -> String {"),
  textLine 16 (c!"let Create { ref lang, } = self;"),
  textLine 16 (c!"format!(\"/books\")"),
  textLine 12 (c!"}"),
  textLine 8 (c!"}"),
  c!"\n",
  textLine 8 (c!"/// Renders for `DELETE /books/{id}`."),
  textLine 8 (c!"#[derive(Debug, PartialEq, Eq)]"),
  textLine 8 (c!"pub struct Destroy {"),
  textLine 12 (c!"pub id: Uuid,"),
  textLine 12 (c!"pub lang: Option<String>,"),
  textLine 8 (c!"}"),
  c!"\n",
  textLine 8 (c!"impl Destroy {"),
  textLine 12 (c!"/// Make a path to this route with the g" ++ c!"iven parameters."),
  textLine 12 (c!"pub fn to_path(&self) -> String {"),
  textLine 16 (c!"let Destroy { ref id, ref lang, } = self" ++ c!";"),
  textLine 16 (c!"format!(\"/books/{}\", id)"),
  textLine 12 (c!"}"),
  textLine 8 (c!"}"),
  c!"\n"]

/-- `wayfinder-tests/cases/example/routes.rs:81-120` -/
def example3 : List Str := [
  textLine 8 (c!"/// Renders for `GET /books/{id}/edit`."),
  textLine 8 (c!"#[derive(Debug, PartialEq, Eq)]"),
  textLine 8 (c!"pub struct Edit {"),
  textLine 12 (c!"pub id: Uuid,"),
  textLine 12 (c!"pub lang: Option<String>,"),
  textLine 8 (c!"}"),
  c!"\n",
  textLine 8 (c!"impl Edit {"),
  textLine 12 (c!"/// Make a path to this route with the g" ++ c!"iven parameters."),
  textLine 12 (c!"pub fn to_path(&self) -> String {"),
  textLine 16 (c!"let Edit { ref id, ref lang, } = self;"),
  textLine 16 (c!"format!(\"/books/{}/edit\", id)"),
  textLine 12 (c!"}"),
  textLine 8 (c!"}"),
  c!"\n",
  textLine 8 (c!"/// Renders for `GET /books`."),
  textLine 8 (c!"#[derive(Debug, PartialEq, Eq)]"),
  textLine 8 (c!"pub struct Index {"),
  textLine 12 (c!"pub lang: Option<String>,"),
  textLine 8 (c!"}"),
  c!"\n",
  textLine 8 (c!"impl Index {"),
  textLine 12 (c!"/// Make a path to this route with the g" ++ c!"iven parameters."),
  textLine 12 (c!"pub fn to_path(&self) -> String {"),
  textLine 16 (c!"let Index { ref lang, } = self;"),
  textLine 16 (c!"format!(\"/books\")"),
  textLine 12 (c!"}"),
  textLine 8 (c!"}"),
  c!"\n",
  textLine 8 (c!"/// Renders for `GET /books/new`."),
  textLine 8 (c!"#[derive(Debug, PartialEq, Eq)]"),
  textLine 8 (c!"pub struct New {"),
  textLine 12 (c!"pub lang: Option<String>,"),
  textLine 8 (c!"}"),
  c!"\n",
  textLine 8 (c!"impl New {"),
  textLine 12 (c!"/// Make a path to this route with the g" ++ c!"iven parameters."),
  textLine 12 (c!"pub fn to_path(&self) -> String {"),
  textLine 16 (c!"let New { ref lang, } = self;"),
  textLine 16 (c!"format!(\"/books/new\")")]

/-- `wayfinder-tests/cases/example/routes.rs:121-160` -/
def example4 : List Str := [
  textLine 12 (c!"}"),
  textLine 8 (c!"}"),
  c!"\n",
  textLine 8 (c!"/// Renders for `GET /books/{id}`."),
  textLine 8 (c!"#[derive(Debug, PartialEq, Eq)]"),
  textLine 8 (c!"pub struct Show {"),
  textLine 12 (c!"pub id: Uuid,"),
  textLine 12 (c!"pub lang: Option<String>,"),
  textLine 8 (c!"}"),
  c!"\n",
  textLine 8 (c!"impl Show {"),
  textLine 12 (c!"/// Make a path to this route with the g" ++ c!"iven parameters."),
  textLine 12 (c!"pub fn to_path(&self) -> String {"),
  textLine 16 (c!"let Show { ref id, ref lang, } = self;"),
  textLine 16 (c!"format!(\"/books/{}\", id)"),
  textLine 12 (c!"}"),
  textLine 8 (c!"}"),
  c!"\n",
  textLine 8 (c!"/// Renders for `PUT /books/{id}`."),
  textLine 8 (c!"#[derive(Debug, PartialEq, Eq)]"),
  textLine 8 (c!"pub struct Update {"),
  textLine 12 (c!"pub id: Uuid,"),
  textLine 12 (c!"pub lang: Option<String>,"),
  textLine 8 (c!"}"),
  c!"\n",
  textLine 8 (c!"impl Update {"),
  textLine 12 (c!"/// Make a path to this route with the g" ++ c!"iven parameters."),
  textLine 12 (c!"pub fn to_path(&self) -> String {"),
  textLine 16 (c!"let Update { ref id, ref lang, } = self;"),
  textLine 16 (c!"format!(\"/books/{}\", id)"),
  textLine 12 (c!"}"),
  textLine 8 (c!"}"),
  c!"\n",
  textLine 8 (c!"/// Parameters for requests to the books" ++ c!" controller."),
  textLine 8 (c!"#[derive(Debug, PartialEq, Eq)]"),
  textLine 8 (c!"pub enum Route {"),
  textLine 12 (c!"Create(Create),"),
  textLine 12 (c!"Destroy(Destroy),"),
  textLine 12 (c!"Edit(Edit),"),
  textLine 12 (c!"Index(Index),")]

/-- `wayfinder-tests/cases/example/routes.rs:161-200` -/
def example5 : List Str := [
  textLine 12 (c!"New(New),"),
  textLine 12 (c!"Show(Show),"),
  textLine 12 (c!"Update(Update),"),
  textLine 8 (c!"}"),
  c!"\n",
  textLine 8 (c!"impl Route {"),
  textLine 12 (c!"/// Make a path to this route with the g" ++ c!"iven parameters."),
  textLine 12 (c!"pub fn to_path(&self) -> String {"),
  textLine 16 (c!"match self {"),
  textLine 20 (c!"Route::Create(ref route) => route.to_pat" ++ c!"h(),"),
  textLine 20 (c!"Route::Destroy(ref route) => route.to_pa" ++ c!"th(),"),
  textLine 20 (c!"Route::Edit(ref route) => route.to_path(" ++ c!"),"),
  textLine 20 (c!"Route::Index(ref route) => route.to_path" ++ c!"(),"),
  textLine 20 (c!"Route::New(ref route) => route.to_path()" ++ c!","),
  textLine 20 (c!"Route::Show(ref route) => route.to_path(" ++ c!"),"),
  textLine 20 (c!"Route::Update(ref route) => route.to_pat" ++ c!"h(),"),
  textLine 16 (c!"}"),
  textLine 12 (c!"}"),
  textLine 8 (c!"}"),
  textLine 4 (c!"}"),
  c!"\n",
  textLine 4 (c!"pub mod people {"),
  textLine 8 (c!"use uuid::Uuid;"),
  c!"\n",
  textLine 8 (c!"/// Renders for `POST /people`."),
  textLine 8 (c!"#[derive(Debug, PartialEq, Eq)]"),
  textLine 8 (c!"pub struct Create {"),
  textLine 12 (c!"pub lang: Option<String>,"),
  textLine 8 (c!"}"),
  c!"\n",
  textLine 8 (c!"impl Create {"),
  textLine 12 (c!"/// Make a path to this route with the g" ++ c!"iven parameters."),
  textLine 12 (c!"pub fn to_path(&self) -> String {"),
  textLine 16 (c!"let Create { ref lang, } = self;"),
  textLine 16 (c!"format!(\"/people\")"),
  textLine 12 (c!"}"),
  textLine 8 (c!"}"),
  c!"\n",
  textLine 8 (c!"/// Renders for `DELETE /people/{id}`."),
  textLine 8 (c!"#[derive(Debug, PartialEq, Eq)]")]

/-- `wayfinder-tests/cases/example/routes.rs:201-240` -/
def example6 : List Str := [
  textLine 8 (c!"pub struct Destroy {"),
  textLine 12 (c!"pub id: Uuid,"),
  textLine 12 (c!"pub lang: Option<String>,"),
  textLine 8 (c!"}"),
  c!"\n",
  textLine 8 (c!"impl Destroy {"),
  textLine 12 (c!"/// Make a path to this route with the g" ++ c!"iven parameters."),
  textLine 12 (c!"pub fn to_path(&self) -> String {"),
  textLine 16 (c!"let Destroy { ref id, ref lang, } = self" ++ c!";"),
  textLine 16 (c!"format!(\"/people/{}\", id)"),
  textLine 12 (c!"}"),
  textLine 8 (c!"}"),
  c!"\n",
  textLine 8 (c!"/// Renders for `GET /people/{id}/edit`."),
  textLine 8 (c!"#[derive(Debug, PartialEq, Eq)]"),
  textLine 8 (c!"pub struct Edit {"),
  textLine 12 (c!"pub id: Uuid,"),
  textLine 12 (c!"pub lang: Option<String>,"),
  textLine 8 (c!"}"),
  c!"\n",
  textLine 8 (c!"impl Edit {"),
  textLine 12 (c!"/// Make a path to this route with the g" ++ c!"iven parameters."),
  textLine 12 (c!"pub fn to_path(&self) -> String {"),
  textLine 16 (c!"let Edit { ref id, ref lang, } = self;"),
  textLine 16 (c!"format!(\"/people/{}/edit\", id)"),
  textLine 12 (c!"}"),
  textLine 8 (c!"}"),
  c!"\n",
  textLine 8 (c!"/// Renders for `GET /people`."),
  textLine 8 (c!"#[derive(Debug, PartialEq, Eq)]"),
  textLine 8 (c!"pub struct Index {"),
  textLine 12 (c!"pub lang: Option<String>,"),
  textLine 8 (c!"}"),
  c!"\n",
  textLine 8 (c!"impl Index {"),
  textLine 12 (c!"/// Make a path to this route with the g" ++ c!"iven parameters."),
  textLine 12 (c!"pub fn to_path(&self) -> String {"),
  textLine 16 (c!"let Index { ref lang, } = self;"),
  textLine 16 (c!"format!(\"/people\")"),
  textLine 12 (c!"}")]

/-- `wayfinder-tests/cases/example/routes.rs:241-280` -/
def example7 : List Str := [
  textLine 8 (c!"}"),
  c!"\n",
  textLine 8 (c!"/// Renders for `GET /people/new`."),
  textLine 8 (c!"#[derive(Debug, PartialEq, Eq)]"),
  textLine 8 (c!"pub struct New {"),
  textLine 12 (c!"pub lang: Option<String>,"),
  textLine 8 (c!"}"),
  c!"\n",
  textLine 8 (c!"impl New {"),
  textLine 12 (c!"/// Make a path to this route with the g" ++ c!"iven parameters."),
  textLine 12 (c!"pub fn to_path(&self) -> String {"),
  textLine 16 (c!"let New { ref lang, } = self;"),
  textLine 16 (c!"format!(\"/people/new\")"),
  textLine 12 (c!"}"),
  textLine 8 (c!"}"),
  c!"\n",
  textLine 8 (c!"/// Renders for `GET /people/{id}`."),
  textLine 8 (c!"#[derive(Debug, PartialEq, Eq)]"),
  textLine 8 (c!"pub struct Show {"),
  textLine 12 (c!"pub id: Uuid,"),
  textLine 12 (c!"pub lang: Option<String>,"),
  textLine 8 (c!"}"),
  c!"\n",
  textLine 8 (c!"impl Show {"),
  textLine 12 (c!"/// Make a path to this route with the g" ++ c!"iven parameters."),
  textLine 12 (c!"pub fn to_path(&self) -> String {"),
  textLine 16 (c!"let Show { ref id, ref lang, } = self;"),
  textLine 16 (c!"format!(\"/people/{}\", id)"),
  textLine 12 (c!"}"),
  textLine 8 (c!"}"),
  c!"\n",
  textLine 8 (c!"/// Renders for `PUT /people/{id}`."),
  textLine 8 (c!"#[derive(Debug, PartialEq, Eq)]"),
  textLine 8 (c!"pub struct Update {"),
  textLine 12 (c!"pub id: Uuid,"),
  textLine 12 (c!"pub lang: Option<String>,"),
  textLine 12 (c!"pub name: Option<String>,"),
  textLine 8 (c!"}"),
  c!"\n",
  textLine 8 (c!"impl Update {")]

/-- `wayfinder-tests/cases/example/routes.rs:281-320` -/
def example8 : List Str := [
  textLine 12 (c!"/// Make a path to this route with the g" ++ c!"iven parameters."),
  textLine 12 (c!"pub fn to_path(&self) -> String {"),
  textLine 16 (c!"let Update { ref id, ref lang, ref name," ++ c!" } = self;"),
  textLine 16 (c!"format!(\"/people/{}\", id)"),
  textLine 12 (c!"}"),
  textLine 8 (c!"}"),
  c!"\n",
  textLine 8 (c!"/// Parameters for requests to the peopl" ++ c!"e controller."),
  textLine 8 (c!"#[derive(Debug, PartialEq, Eq)]"),
  textLine 8 (c!"pub enum Route {"),
  textLine 12 (c!"Create(Create),"),
  textLine 12 (c!"Destroy(Destroy),"),
  textLine 12 (c!"Edit(Edit),"),
  textLine 12 (c!"Index(Index),"),
  textLine 12 (c!"New(New),"),
  textLine 12 (c!"Show(Show),"),
  textLine 12 (c!"Update(Update),"),
  textLine 8 (c!"}"),
  c!"\n",
  textLine 8 (c!"impl Route {"),
  textLine 12 (c!"/// Make a path to this route with the g" ++ c!"iven parameters."),
  textLine 12 (c!"pub fn to_path(&self) -> String {"),
  textLine 16 (c!"match self {"),
  textLine 20 (c!"Route::Create(ref route) => route.to_pat" ++ c!"h(),"),
  textLine 20 (c!"Route::Destroy(ref route) => route.to_pa" ++ c!"th(),"),
  textLine 20 (c!"Route::Edit(ref route) => route.to_path(" ++ c!"),"),
  textLine 20 (c!"Route::Index(ref route) => route.to_path" ++ c!"(),"),
  textLine 20 (c!"Route::New(ref route) => route.to_path()" ++ c!","),
  textLine 20 (c!"Route::Show(ref route) => route.to_path(" ++ c!"),"),
  textLine 20 (c!"Route::Update(ref route) => route.to_pat" ++ c!"h(),"),
  textLine 16 (c!"}"),
  textLine 12 (c!"}"),
  textLine 8 (c!"}"),
  textLine 4 (c!"}"),
  c!"\n",
  textLine 4 (c!"/// An active route in the application -" ++ c!"- match against this."),
  textLine 4 (c!"#[derive(Debug, PartialEq, Eq)]"),
  textLine 4 (c!"pub enum Route {"),
  textLine 8 (c!"Books(books::Route),"),
  textLine 8 (c!"People(people::Route),")]

/-- `wayfinder-tests/cases/example/routes.rs:321-360` -/
def example9 : List Str := [
  textLine 4 (c!"}"),
  c!"\n",
  textLine 4 (c!"impl Route {"),
  textLine 8 (c!"/// Make a path to this route with the g" ++ c!"iven parameters."),
  textLine 8 (c!"pub fn to_path(&self) -> String {"),
  textLine 12 (c!"match self {"),
  textLine 16 (c!"Route::Books(ref route) => route.to_path" ++ c!"(),"),
  textLine 16 (c!"Route::People(ref route) => route.to_pat" ++ c!"h(),"),
  textLine 12 (c!"}"),
  textLine 8 (c!"}"),
  textLine 4 (c!"}"),
  c!"\n",
  textLine 4 (c!"#[derive(PartialEq, Eq)]"),
  textLine 4 (c!"pub enum Match<T> {"),
  textLine 8 (c!"NotFound,"),
  textLine 8 (c!"NotAllowed,"),
  textLine 8 (c!"Route(T),"),
  textLine 8 (c!"Redirect(T),"),
  textLine 4 (c!"}"),
  c!"\n",
  textLine 4 (c!"use std::fmt;"),
  textLine 4 (c!"impl<T: fmt::Debug> fmt::Debug for Match" ++ c!"<T> {"),
  textLine 8 (c!"fn fmt(&self, f: &mut fmt::Formatter) ->" ++ c!" fmt::Result {"),
  textLine 12 (c!"match self {"),
  textLine 16 (c!"Match::NotFound => write!(f, \"Match::Not" ++ c!"Found\"),"),
  textLine 16 (c!"Match::NotAllowed => write!(f, \"Match::N" ++ c!"otAllowed\"),"),
  textLine 16 (c!"Match::Route(t) => write!(f, \"Match::Rou" ++ c!"te({:?})\", t),"),
  textLine 16 (c!"Match::Redirect(t) => write!(f, \"Match::" ++ c!"Redirect({:?})\", t),"),
  textLine 12 (c!"}"),
  textLine 8 (c!"}"),
  textLine 4 (c!"}"),
  c!"\n",
  textLine 4 (c!"pub struct Error {"),
  textLine 8 (c!"param: String,"),
  textLine 8 (c!"what: Box<dyn fmt::Debug>,"),
  textLine 4 (c!"}"),
  c!"\n",
  textLine 4 (c!"impl fmt::Debug for Error {"),
  textLine 8 (c!"fn fmt(&self, f: &mut fmt::Formatter) ->" ++ c!" fmt::Result {"),
  textLine 12 (c!"f.debug_struct(\"wayfinder::Error\")")]

/-- `wayfinder-tests/cases/example/routes.rs:361-400` -/
def example10 : List Str := [
  textLine 16 (c!".field(\"param\", &self.param)"),
  textLine 16 (c!".field(\"what\", &self.what)"),
  textLine 16 (c!".finish()"),
  textLine 8 (c!"}"),
  textLine 4 (c!"}"),
  c!"\n",
  textLine 4 (c!"impl fmt::Display for Error {"),
  textLine 8 (c!"fn fmt(&self, f: &mut fmt::Formatter) ->" ++ c!" fmt::Result {"),
  textLine 12 (c!"write!("),
  textLine 16 (c!"f,"),
  textLine 16 (c!"\"Error parsing '{}' parameter {:?}\","),
  textLine 16 (c!"self.param, self.what"),
  textLine 12 (c!")"),
  textLine 8 (c!"}"),
  textLine 4 (c!"}"),
  c!"\n",
  textLine 4 (c!"impl std::error::Error for Error {}"),
  c!"\n",
  textLine 4 (c!"impl Error {"),
  textLine 8 (c!"pub fn fail<S: AsRef<str>, T: fmt::Debug" ++ c!" + 'static>(param: S, what: T) -> Error " ++ c!"{"),
  textLine 12 (c!"Error {"),
  textLine 16 (c!"param: param.as_ref().to_string(),"),
  textLine 16 (c!"what: Box::new(what),"),
  textLine 12 (c!"}"),
  textLine 8 (c!"}"),
  textLine 4 (c!"}"),
  textLine 4 (c!"/// Match a path and method against this" ++ c!" router."),
  textLine 4 (c!"///"),
  textLine 4 (c!"/// Accepts a byte slice for the request" ++ c!" path and HTTP verb."),
  textLine 4 (c!"/// Returns a `Result`, usually `Ok` wit" ++ c!"h the result of the"),
  textLine 4 (c!"/// [`Match`]."),
  textLine 4 (c!"///"),
  textLine 4 (c!"/// If the match was successful, it will" ++ c!" be a `Match::Route` or"),
  textLine 4 (c!"/// `Match::Redirect` with the parameter" ++ c!"s enclosed.  You can then"),
  textLine 4 (c!"/// match on the [`Route`] to pass contr" ++ c!"ol of the request along to"),
  textLine 4 (c!"/// a specific handler."),
  textLine 4 (c!"///"),
  textLine 4 (c!"/// If there is no match, this will retu" ++ c!"rn `Match::NotFound`"),
  textLine 4 (c!"/// if no path matches (which you could " ++ c!"return as `404 Not Found`),"),
  textLine 4 (c!"/// or `Match::NotAllowed` if no method " ++ c!"matches (in which case a")]

/-- `wayfinder-tests/cases/example/routes.rs:401-440` -/
def example11 : List Str := [
  textLine 4 (c!"/// `405 Not Allowed` would be appropria" ++ c!"te)."),
  textLine 4 (c!"///"),
  textLine 4 (c!"/// If a route parameter fails to parse " ++ c!"correctly, this will return"),
  textLine 4 (c!"/// `Err` with the underlying parsing er" ++ c!"ror.  Usually you'll want"),
  textLine 4 (c!"/// to send back a `400 Bad Request` for" ++ c!" that."),
  textLine 4 (c!"///"),
  textLine 4 (c!"/// [`Match`]: enum.Match.html"),
  textLine 4 (c!"/// [`Route`]: enum.Route.html"),
  textLine 4 (c!"pub fn match_route<P: AsRef<[u8]>, M: As" ++ c!"Ref<[u8]>>("),
  textLine 8 (c!"path: P,"),
  textLine 8 (c!"method: M,"),
  textLine 4 (c!") -> Result<Match<Route>, Error> {"),
  textLine 8 (c!"let method = method.as_ref();"),
  textLine 8 (c!"let path = path.as_ref();"),
  textLine 8 (c!"let len = path.len();"),
  textLine 8 (c!"let mut i = if len > 0 && &path[0..1] ==" ++ c!" b\"/\" { 1 } else { 0 };"),
  c!"\n",
  textLine 8 (c!"if i == len {"),
  textLine 12 (c!"return Ok(Match::NotFound);"),
  textLine 8 (c!"}"),
  textLine 8 (c!"match &path[i..i+1] {"),
  textLine 12 (c!"b\"b\" => {"),
  textLine 16 (c!"i += 1;"),
  textLine 16 (c!"if i + 4 > len {"),
  textLine 20 (c!"return Ok(Match::NotFound);"),
  textLine 16 (c!"}"),
  textLine 16 (c!"match &path[i..i+4] {"),
  textLine 20 (c!"b\"ooks\" => {"),
  textLine 24 (c!"i += 4;"),
  textLine 20 (c!"},"),
  textLine 20 (c!"_ => return Ok(Match::NotFound),"),
  textLine 16 (c!"}"),
  textLine 16 (c!"if i == len {"),
  textLine 20 (c!"match method {"),
  textLine 24 (c!"b\"GET\" => return Ok(Match::Route(Route::" ++ c!"Books(books::Route::Index(books::Index {"),
  textLine 28 (c!"lang: None,"),
  textLine 24 (c!"})))),"),
  textLine 24 (c!"b\"POST\" => return Ok(Match::Route(Route:" ++ c!":Books(books::Route::Create(books::Creat" ++ c!"e {"),
  textLine 28 (c!"lang: None,"),
  textLine 24 (c!"})))),")]

/-- `wayfinder-tests/cases/example/routes.rs:441-480` -/
def example12 : List Str := [
  textLine 24 (c!"_ => return Ok(Match::NotAllowed),"),
  textLine 20 (c!"}"),
  textLine 16 (c!"}"),
  textLine 16 (c!"match &path[i..i+1] {"),
  textLine 20 (c!"b\"/\" => {"),
  textLine 24 (c!"i += 1;"),
  textLine 20 (c!"},"),
  textLine 20 (c!"_ => return Ok(Match::NotFound),"),
  textLine 16 (c!"}"),
  textLine 16 (c!"if i == len {"),
  textLine 20 (c!"match method {"),
  textLine 24 (c!"b\"GET\" => return Ok(Match::Route(Route::" ++ c!"Books(books::Route::Index(books::Index {"),
  textLine 28 (c!"lang: None,"),
  textLine 24 (c!"})))),"),
  textLine 24 (c!"b\"POST\" => return Ok(Match::Route(Route:" ++ c!":Books(books::Route::Create(books::Creat" ++ c!"e {"),
  textLine 28 (c!"lang: None,"),
  textLine 24 (c!"})))),"),
  textLine 24 (c!"_ => return Ok(Match::NotAllowed),"),
  textLine 20 (c!"}"),
  textLine 16 (c!"}"),
  c!"\n",
  textLine 16 (c!"let start = i;"),
  c!"\n",
  textLine 16 (c!"if i + 3 <= len {"),
  textLine 20 (c!"match &path[i..i+3] {"),
  textLine 24 (c!"b\"new\" => {"),
  textLine 28 (c!"i += 3;"),
  textLine 28 (c!"if i == len {"),
  textLine 32 (c!"match method {"),
  textLine 36 (c!"b\"GET\" => return Ok(Match::Route(Route::" ++ c!"Books(books::Route::New(books::New {"),
  textLine 40 (c!"lang: None,"),
  textLine 36 (c!"})))),"),
  textLine 36 (c!"_ => return Ok(Match::NotAllowed),"),
  textLine 32 (c!"}"),
  textLine 28 (c!"}"),
  textLine 28 (c!"match &path[i..i+1] {"),
  textLine 32 (c!"b\"/\" => {"),
  textLine 36 (c!"i += 1;"),
  textLine 32 (c!"},"),
  textLine 32 (c!"_ => return Ok(Match::NotFound),")]

/-- `wayfinder-tests/cases/example/routes.rs:481-520` -/
def example13 : List Str := [
  textLine 28 (c!"}"),
  textLine 28 (c!"if i == len {"),
  textLine 32 (c!"match method {"),
  textLine 36 (c!"b\"GET\" => return Ok(Match::Route(Route::" ++ c!"Books(books::Route::New(books::New {"),
  textLine 40 (c!"lang: None,"),
  textLine 36 (c!"})))),"),
  textLine 36 (c!"_ => return Ok(Match::NotAllowed),"),
  textLine 32 (c!"}"),
  textLine 28 (c!"}"),
  textLine 28 (c!"return Ok(Match::NotFound);"),
  textLine 24 (c!"},"),
  textLine 24 (c!"_ => {},"),
  textLine 20 (c!"}"),
  textLine 16 (c!"}"),
  c!"\n",
  textLine 16 (c!"while i < len && &path[i..i+1] != b\"/\" {"),
  textLine 20 (c!"i += 1;"),
  textLine 16 (c!"}"),
  c!"\n",
  textLine 16 (c!"let text = std::str::from_utf8(&path[sta" ++ c!"rt..i]).unwrap();"),
  textLine 16 (c!"let id = text.parse()"),
  textLine 20 (c!".map_err(|e| Error::fail(\"id\", e))?;"),
  c!"\n",
  textLine 16 (c!"if i == len {"),
  textLine 20 (c!"match method {"),
  textLine 24 (c!"b\"GET\" => return Ok(Match::Route(Route::" ++ c!"Books(books::Route::Show(books::Show {"),
  textLine 28 (c!"id,"),
  textLine 28 (c!"lang: None,"),
  textLine 24 (c!"})))),"),
  textLine 24 (c!"b\"PUT\" => return Ok(Match::Route(Route::" ++ c!"Books(books::Route::Update(books::Update" ++ c!" {"),
  textLine 28 (c!"id,"),
  textLine 28 (c!"lang: None,"),
  textLine 24 (c!"})))),"),
  textLine 24 (c!"b\"DELETE\" => return Ok(Match::Route(Rout" ++ c!"e::Books(books::Route::Destroy(books::De" ++ c!"stroy {"),
  textLine 28 (c!"id,"),
  textLine 28 (c!"lang: None,"),
  textLine 24 (c!"})))),"),
  textLine 24 (c!"_ => return Ok(Match::NotAllowed),"),
  textLine 20 (c!"}"),
  textLine 16 (c!"}")]

/-- `wayfinder-tests/cases/example/routes.rs:521-560` -/
def example14 : List Str := [
  textLine 16 (c!"match &path[i..i+1] {"),
  textLine 20 (c!"b\"/\" => {"),
  textLine 24 (c!"i += 1;"),
  textLine 20 (c!"},"),
  textLine 20 (c!"_ => return Ok(Match::NotFound),"),
  textLine 16 (c!"}"),
  textLine 16 (c!"if i == len {"),
  textLine 20 (c!"match method {"),
  textLine 24 (c!"b\"GET\" => return Ok(Match::Route(Route::" ++ c!"Books(books::Route::Show(books::Show {"),
  textLine 28 (c!"id,"),
  textLine 28 (c!"lang: None,"),
  textLine 24 (c!"})))),"),
  textLine 24 (c!"b\"PUT\" => return Ok(Match::Route(Route::" ++ c!"Books(books::Route::Update(books::Update" ++ c!" {"),
  textLine 28 (c!"id,"),
  textLine 28 (c!"lang: None,"),
  textLine 24 (c!"})))),"),
  textLine 24 (c!"b\"DELETE\" => return Ok(Match::Route(Rout" ++ c!"e::Books(books::Route::Destroy(books::De" ++ c!"stroy {"),
  textLine 28 (c!"id,"),
  textLine 28 (c!"lang: None,"),
  textLine 24 (c!"})))),"),
  textLine 24 (c!"_ => return Ok(Match::NotAllowed),"),
  textLine 20 (c!"}"),
  textLine 16 (c!"}"),
  textLine 16 (c!"if i + 4 > len {"),
  textLine 20 (c!"return Ok(Match::NotFound);"),
  textLine 16 (c!"}"),
  textLine 16 (c!"match &path[i..i+4] {"),
  textLine 20 (c!"b\"edit\" => {"),
  textLine 24 (c!"i += 4;"),
  textLine 20 (c!"},"),
  textLine 20 (c!"_ => return Ok(Match::NotFound),"),
  textLine 16 (c!"}"),
  textLine 16 (c!"if i == len {"),
  textLine 20 (c!"match method {"),
  textLine 24 (c!"b\"GET\" => return Ok(Match::Route(Route::" ++ c!"Books(books::Route::Edit(books::Edit {"),
  textLine 28 (c!"id,"),
  textLine 28 (c!"lang: None,"),
  textLine 24 (c!"})))),"),
  textLine 24 (c!"_ => return Ok(Match::NotAllowed),"),
  textLine 20 (c!"}")]

/-- `wayfinder-tests/cases/example/routes.rs:561-600` -/
def example15 : List Str := [
  textLine 16 (c!"}"),
  textLine 16 (c!"match &path[i..i+1] {"),
  textLine 20 (c!"b\"/\" => {"),
  textLine 24 (c!"i += 1;"),
  textLine 20 (c!"},"),
  textLine 20 (c!"_ => return Ok(Match::NotFound),"),
  textLine 16 (c!"}"),
  textLine 16 (c!"if i == len {"),
  textLine 20 (c!"match method {"),
  textLine 24 (c!"b\"GET\" => return Ok(Match::Route(Route::" ++ c!"Books(books::Route::Edit(books::Edit {"),
  textLine 28 (c!"id,"),
  textLine 28 (c!"lang: None,"),
  textLine 24 (c!"})))),"),
  textLine 24 (c!"_ => return Ok(Match::NotAllowed),"),
  textLine 20 (c!"}"),
  textLine 16 (c!"}"),
  textLine 16 (c!"return Ok(Match::NotFound);"),
  textLine 12 (c!"},"),
  textLine 12 (c!"b\"p\" => {"),
  textLine 16 (c!"i += 1;"),
  textLine 16 (c!"if i + 5 > len {"),
  textLine 20 (c!"return Ok(Match::NotFound);"),
  textLine 16 (c!"}"),
  textLine 16 (c!"match &path[i..i+5] {"),
  textLine 20 (c!"b\"eople\" => {"),
  textLine 24 (c!"i += 5;"),
  textLine 20 (c!"},"),
  textLine 20 (c!"_ => return Ok(Match::NotFound),"),
  textLine 16 (c!"}"),
  textLine 16 (c!"if i == len {"),
  textLine 20 (c!"match method {"),
  textLine 24 (c!"b\"GET\" => return Ok(Match::Route(Route::" ++ c!"People(people::Route::Index(people::Inde" ++ c!"x {"),
  textLine 28 (c!"lang: None,"),
  textLine 24 (c!"})))),"),
  textLine 24 (c!"b\"POST\" => return Ok(Match::Route(Route:" ++ c!":People(people::Route::Create(people::Cr" ++ c!"eate {"),
  textLine 28 (c!"lang: None,"),
  textLine 24 (c!"})))),"),
  textLine 24 (c!"_ => return Ok(Match::NotAllowed),"),
  textLine 20 (c!"}"),
  textLine 16 (c!"}")]

/-- `wayfinder-tests/cases/example/routes.rs:601-640` -/
def example16 : List Str := [
  textLine 16 (c!"match &path[i..i+1] {"),
  textLine 20 (c!"b\"/\" => {"),
  textLine 24 (c!"i += 1;"),
  textLine 20 (c!"},"),
  textLine 20 (c!"_ => return Ok(Match::NotFound),"),
  textLine 16 (c!"}"),
  textLine 16 (c!"if i == len {"),
  textLine 20 (c!"match method {"),
  textLine 24 (c!"b\"GET\" => return Ok(Match::Route(Route::" ++ c!"People(people::Route::Index(people::Inde" ++ c!"x {"),
  textLine 28 (c!"lang: None,"),
  textLine 24 (c!"})))),"),
  textLine 24 (c!"b\"POST\" => return Ok(Match::Route(Route:" ++ c!":People(people::Route::Create(people::Cr" ++ c!"eate {"),
  textLine 28 (c!"lang: None,"),
  textLine 24 (c!"})))),"),
  textLine 24 (c!"_ => return Ok(Match::NotAllowed),"),
  textLine 20 (c!"}"),
  textLine 16 (c!"}"),
  c!"\n",
  textLine 16 (c!"let start = i;"),
  c!"\n",
  textLine 16 (c!"if i + 3 <= len {"),
  textLine 20 (c!"match &path[i..i+3] {"),
  textLine 24 (c!"b\"new\" => {"),
  textLine 28 (c!"i += 3;"),
  textLine 28 (c!"if i == len {"),
  textLine 32 (c!"match method {"),
  textLine 36 (c!"b\"GET\" => return Ok(Match::Route(Route::" ++ c!"People(people::Route::New(people::New {"),
  textLine 40 (c!"lang: None,"),
  textLine 36 (c!"})))),"),
  textLine 36 (c!"_ => return Ok(Match::NotAllowed),"),
  textLine 32 (c!"}"),
  textLine 28 (c!"}"),
  textLine 28 (c!"match &path[i..i+1] {"),
  textLine 32 (c!"b\"/\" => {"),
  textLine 36 (c!"i += 1;"),
  textLine 32 (c!"},"),
  textLine 32 (c!"_ => return Ok(Match::NotFound),"),
  textLine 28 (c!"}"),
  textLine 28 (c!"if i == len {"),
  textLine 32 (c!"match method {")]

/-- `wayfinder-tests/cases/example/routes.rs:641-680` -/
def example17 : List Str := [
  textLine 36 (c!"b\"GET\" => return Ok(Match::Route(Route::" ++ c!"People(people::Route::New(people::New {"),
  textLine 40 (c!"lang: None,"),
  textLine 36 (c!"})))),"),
  textLine 36 (c!"_ => return Ok(Match::NotAllowed),"),
  textLine 32 (c!"}"),
  textLine 28 (c!"}"),
  textLine 28 (c!"return Ok(Match::NotFound);"),
  textLine 24 (c!"},"),
  textLine 24 (c!"_ => {},"),
  textLine 20 (c!"}"),
  textLine 16 (c!"}"),
  c!"\n",
  textLine 16 (c!"while i < len && &path[i..i+1] != b\"/\" {"),
  textLine 20 (c!"i += 1;"),
  textLine 16 (c!"}"),
  c!"\n",
  textLine 16 (c!"let text = std::str::from_utf8(&path[sta" ++ c!"rt..i]).unwrap();"),
  textLine 16 (c!"let id = text.parse()"),
  textLine 20 (c!".map_err(|e| Error::fail(\"id\", e))?;"),
  c!"\n",
  textLine 16 (c!"if i == len {"),
  textLine 20 (c!"match method {"),
  textLine 24 (c!"b\"GET\" => return Ok(Match::Route(Route::" ++ c!"People(people::Route::Show(people::Show " ++ c!"{"),
  textLine 28 (c!"id,"),
  textLine 28 (c!"lang: None,"),
  textLine 24 (c!"})))),"),
  textLine 24 (c!"b\"PUT\" => return Ok(Match::Route(Route::" ++ c!"People(people::Route::Update(people::Upd" ++ c!"ate {"),
  textLine 28 (c!"id,"),
  textLine 28 (c!"lang: None,"),
  textLine 28 (c!"name: None,"),
  textLine 24 (c!"})))),"),
  textLine 24 (c!"b\"DELETE\" => return Ok(Match::Route(Rout" ++ c!"e::People(people::Route::Destroy(people:" ++ c!":Destroy {"),
  textLine 28 (c!"id,"),
  textLine 28 (c!"lang: None,"),
  textLine 24 (c!"})))),"),
  textLine 24 (c!"_ => return Ok(Match::NotAllowed),"),
  textLine 20 (c!"}"),
  textLine 16 (c!"}"),
  textLine 16 (c!"match &path[i..i+1] {"),
  textLine 20 (c!"b\"/\" => {")]

/-- `wayfinder-tests/cases/example/routes.rs:681-720` -/
def example18 : List Str := [
  textLine 24 (c!"i += 1;"),
  textLine 20 (c!"},"),
  textLine 20 (c!"_ => return Ok(Match::NotFound),"),
  textLine 16 (c!"}"),
  textLine 16 (c!"if i == len {"),
  textLine 20 (c!"match method {"),
  textLine 24 (c!"b\"GET\" => return Ok(Match::Route(Route::" ++ c!"People(people::Route::Show(people::Show " ++ c!"{"),
  textLine 28 (c!"id,"),
  textLine 28 (c!"lang: None,"),
  textLine 24 (c!"})))),"),
  textLine 24 (c!"b\"PUT\" => return Ok(Match::Route(Route::" ++ c!"People(people::Route::Update(people::Upd" ++ c!"ate {"),
  textLine 28 (c!"id,"),
  textLine 28 (c!"lang: None,"),
  textLine 28 (c!"name: None,"),
  textLine 24 (c!"})))),"),
  textLine 24 (c!"b\"DELETE\" => return Ok(Match::Route(Rout" ++ c!"e::People(people::Route::Destroy(people:" ++ c!":Destroy {"),
  textLine 28 (c!"id,"),
  textLine 28 (c!"lang: None,"),
  textLine 24 (c!"})))),"),
  textLine 24 (c!"_ => return Ok(Match::NotAllowed),"),
  textLine 20 (c!"}"),
  textLine 16 (c!"}"),
  textLine 16 (c!"if i + 4 > len {"),
  textLine 20 (c!"return Ok(Match::NotFound);"),
  textLine 16 (c!"}"),
  textLine 16 (c!"match &path[i..i+4] {"),
  textLine 20 (c!"b\"edit\" => {"),
  textLine 24 (c!"i += 4;"),
  textLine 20 (c!"},"),
  textLine 20 (c!"_ => return Ok(Match::NotFound),"),
  textLine 16 (c!"}"),
  textLine 16 (c!"if i == len {"),
  textLine 20 (c!"match method {"),
  textLine 24 (c!"b\"GET\" => return Ok(Match::Route(Route::" ++ c!"People(people::Route::Edit(people::Edit " ++ c!"{"),
  textLine 28 (c!"id,"),
  textLine 28 (c!"lang: None,"),
  textLine 24 (c!"})))),"),
  textLine 24 (c!"_ => return Ok(Match::NotAllowed),"),
  textLine 20 (c!"}"),
  textLine 16 (c!"}")]

/-- `wayfinder-tests/cases/example/routes.rs:721-760` -/
def example19 : List Str := [
  textLine 16 (c!"match &path[i..i+1] {"),
  textLine 20 (c!"b\"/\" => {"),
  textLine 24 (c!"i += 1;"),
  textLine 20 (c!"},"),
  textLine 20 (c!"_ => return Ok(Match::NotFound),"),
  textLine 16 (c!"}"),
  textLine 16 (c!"if i == len {"),
  textLine 20 (c!"match method {"),
  textLine 24 (c!"b\"GET\" => return Ok(Match::Route(Route::" ++ c!"People(people::Route::Edit(people::Edit " ++ c!"{"),
  textLine 28 (c!"id,"),
  textLine 28 (c!"lang: None,"),
  textLine 24 (c!"})))),"),
  textLine 24 (c!"_ => return Ok(Match::NotAllowed),"),
  textLine 20 (c!"}"),
  textLine 16 (c!"}"),
  textLine 16 (c!"return Ok(Match::NotFound);"),
  textLine 12 (c!"},"),
  textLine 12 (c!"b\"u\" => {"),
  textLine 16 (c!"i += 1;"),
  textLine 16 (c!"if i + 4 > len {"),
  textLine 20 (c!"return Ok(Match::NotFound);"),
  textLine 16 (c!"}"),
  textLine 16 (c!"match &path[i..i+4] {"),
  textLine 20 (c!"b\"sers\" => {"),
  textLine 24 (c!"i += 4;"),
  textLine 20 (c!"},"),
  textLine 20 (c!"_ => return Ok(Match::NotFound),"),
  textLine 16 (c!"}"),
  textLine 16 (c!"if i == len {"),
  textLine 20 (c!"match method {"),
  textLine 24 (c!"b\"GET\" => return Ok(Match::Redirect(Rout" ++ c!"e::People(people::Route::Index(people::I" ++ c!"ndex {"),
  textLine 28 (c!"lang: None,"),
  textLine 24 (c!"})))),"),
  textLine 24 (c!"_ => return Ok(Match::NotAllowed),"),
  textLine 20 (c!"}"),
  textLine 16 (c!"}"),
  textLine 16 (c!"match &path[i..i+1] {"),
  textLine 20 (c!"b\"/\" => {"),
  textLine 24 (c!"i += 1;"),
  textLine 20 (c!"},")]

/-- `wayfinder-tests/cases/example/routes.rs:761-777` -/
def example20 : List Str := [
  textLine 20 (c!"_ => return Ok(Match::NotFound),"),
  textLine 16 (c!"}"),
  textLine 16 (c!"if i == len {"),
  textLine 20 (c!"match method {"),
  textLine 24 (c!"b\"GET\" => return Ok(Match::Redirect(Rout" ++ c!"e::People(people::Route::Index(people::I" ++ c!"ndex {"),
  textLine 28 (c!"lang: None,"),
  textLine 24 (c!"})))),"),
  textLine 24 (c!"_ => return Ok(Match::NotAllowed),"),
  textLine 20 (c!"}"),
  textLine 16 (c!"}"),
  textLine 16 (c!"return Ok(Match::NotFound);"),
  textLine 12 (c!"},"),
  textLine 12 (c!"_ => return Ok(Match::NotFound),"),
  textLine 8 (c!"}"),
  textLine 4 (c!"}"),
  c!"\n",
  textLine 0 (c!"} // mod routes")]

/-- `wayfinder-tests/cases/example/routes.rs` -/
def exampleRs : Str :=
  (example1 ++ example2 ++ example3 ++ example4 ++ example5 ++ example6 ++ example7 ++ example8 ++ example9 ++ example10 ++ example11 ++ example12 ++ example13 ++ example14 ++ example15 ++ example16 ++ example17 ++ example18 ++ example19 ++ example20).flatten

/-- `wayfinder-tests/cases/nesting/routes.rs:1-40` -/
def nesting1 : List Str := [
  textLine 0 (c!"pub mod routes {"),
  c!"\n",
  textLine 4 (c!"//! Application route configuration."),
  textLine 4 (c!"//!"),
  textLine 4 (c!"//! Of note is the function [`match_rout" ++ c!"e`] as well as request structs"),
  textLine 4 (c!"//! specific to each named resource."),
  textLine 4 (c!"//!"),
  textLine 4 (c!"//! Route configuration:"),
  textLine 4 (c!"//!"),
  textLine 4 (c!"//! ```ignore"),
  textLine 4 (c!"//! /"),
  textLine 4 (c!"//!   GET Index"),
  textLine 4 (c!"//!   {id: Uuid}"),
  textLine 4 (c!"//!     GET Admin::People::Show"),
  textLine 4 (c!"//! ```"),
  textLine 4 (c!"//!"),
  textLine 4 (c!"//! [`match_route`]: fn.match_route.html"),
  c!"\n",
  textLine 4 (c!"#![allow(dead_code)]"),
  textLine 4 (c!"#![allow(unused_imports)]"),
  textLine 4 (c!"#![allow(unused_mut)]"),
  textLine 4 (c!"#![allow(unused_variables)]"),
  c!"\n",
  textLine 4 (c!"use uuid::Uuid;"),
  c!"\n",
  textLine 4 (c!"/// Renders for `GET /`."),
  textLine 4 (c!"#[derive(Debug, PartialEq, Eq)]"),
  textLine 4 (c!"pub struct Index;"),
  c!"\n",
  textLine 4 (c!"impl Index {"),
  textLine 8 (c!"/// Make a path to this route with the g" ++ c!"iven parameters."),
  textLine 8 (c!"pub fn to_path(&self) -> String {"),
  textLine 12 (c!"format!(\"/\")"),
  textLine 8 (c!"}"),
  textLine 4 (c!"}"),
  c!"\n",
  textLine 4 (c!"pub mod admin {"),
  textLine 8 (c!"use uuid::Uuid;"),
  c!"\n",
  textLine 8 (c!"pub mod people {")]

/-- `wayfinder-tests/cases/nesting/routes.rs:41-80` -/
def nesting2 : List Str := [
  textLine 12 (c!"use uuid::Uuid;"),
  c!"\n",
  textLine 12 (c!"/// Renders for `GET /{id}`."),
  textLine 12 (c!"#[derive(Debug, PartialEq, Eq)]"),
  textLine 12 (c!"pub struct Show {"),
  textLine 16 (c!"pub id: Uuid,"),
  textLine 12 (c!"}"),
  c!"\n",
  textLine 12 (c!"impl Show {"),
  textLine 16 (c!"/// Make a path to this route with the g" ++ c!"iven parameters."),
  textLine 16 (c!"pub fn to_path(&self) -> String {"),
  textLine 20 (c!"let Show { ref id, } = self;"),
  textLine 20 (c!"format!(\"/{}\", id)"),
  textLine 16 (c!"}"),
  textLine 12 (c!"}"),
  c!"\n",
  textLine 12 (c!"/// Parameters for requests to the peopl" ++ c!"e controller."),
  textLine 12 (c!"#[derive(Debug, PartialEq, Eq)]"),
  textLine 12 (c!"pub enum Route {"),
  textLine 16 (c!"Show(Show),"),
  textLine 12 (c!"}"),
  c!"\n",
  textLine 12 (c!"impl Route {"),
  textLine 16 (c!"/// Make a path to this route with the g" ++ c!"iven parameters."),
  textLine 16 (c!"pub fn to_path(&self) -> String {"),
  textLine 20 (c!"match self {"),
  textLine 24 (c!"Route::Show(ref route) => route.to_path(" ++ c!"),"),
  textLine 20 (c!"}"),
  textLine 16 (c!"}"),
  textLine 12 (c!"}"),
  textLine 8 (c!"}"),
  c!"\n",
  textLine 8 (c!"/// Parameters for requests to the admin" ++ c!" controller."),
  textLine 8 (c!"#[derive(Debug, PartialEq, Eq)]"),
  textLine 8 (c!"pub enum Route {"),
  textLine 12 (c!"People(people::Route),"),
  textLine 8 (c!"}"),
  c!"\n",
  textLine 8 (c!"impl Route {"),
  textLine 12 (c!"/// Make a path to this route with the g" ++ c!"iven parameters.")]

/-- `wayfinder-tests/cases/nesting/routes.rs:81-120` -/
def nesting3 : List Str := [
  textLine 12 (c!"pub fn to_path(&self) -> String {"),
  textLine 16 (c!"match self {"),
  textLine 20 (c!"Route::People(ref route) => route.to_pat" ++ c!"h(),"),
  textLine 16 (c!"}"),
  textLine 12 (c!"}"),
  textLine 8 (c!"}"),
  textLine 4 (c!"}"),
  c!"\n",
  textLine 4 (c!"/// An active route in the application -" ++ c!"- match against this."),
  textLine 4 (c!"#[derive(Debug, PartialEq, Eq)]"),
  textLine 4 (c!"pub enum Route {"),
  textLine 8 (c!"Index(Index),"),
  textLine 8 (c!"Admin(admin::Route),"),
  textLine 4 (c!"}"),
  c!"\n",
  textLine 4 (c!"impl Route {"),
  textLine 8 (c!"/// Make a path to this route with the g" ++ c!"iven parameters."),
  textLine 8 (c!"pub fn to_path(&self) -> String {"),
  textLine 12 (c!"match self {"),
  textLine 16 (c!"Route::Index(ref route) => route.to_path" ++ c!"(),"),
  textLine 16 (c!"Route::Admin(ref route) => route.to_path" ++ c!"(),"),
  textLine 12 (c!"}"),
  textLine 8 (c!"}"),
  textLine 4 (c!"}"),
  c!"\n",
  textLine 4 (c!"#[derive(PartialEq, Eq)]"),
  textLine 4 (c!"pub enum Match<T> {"),
  textLine 8 (c!"NotFound,"),
  textLine 8 (c!"NotAllowed,"),
  textLine 8 (c!"Route(T),"),
  textLine 8 (c!"Redirect(T),"),
  textLine 4 (c!"}"),
  c!"\n",
  textLine 4 (c!"use std::fmt;"),
  textLine 4 (c!"impl<T: fmt::Debug> fmt::Debug for Match" ++ c!"<T> {"),
  textLine 8 (c!"fn fmt(&self, f: &mut fmt::Formatter) ->" ++ c!" fmt::Result {"),
  textLine 12 (c!"match self {"),
  textLine 16 (c!"Match::NotFound => write!(f, \"Match::Not" ++ c!"Found\"),"),
  textLine 16 (c!"Match::NotAllowed => write!(f, \"Match::N" ++ c!"otAllowed\"),"),
  textLine 16 (c!"Match::Route(t) => write!(f, \"Match::Rou" ++ c!"te({:?})\", t),")]

/-- `wayfinder-tests/cases/nesting/routes.rs:121-160` -/
def nesting4 : List Str := [
  textLine 16 (c!"Match::Redirect(t) => write!(f, \"Match::" ++ c!"Redirect({:?})\", t),"),
  textLine 12 (c!"}"),
  textLine 8 (c!"}"),
  textLine 4 (c!"}"),
  c!"\n",
  textLine 4 (c!"pub struct Error {"),
  textLine 8 (c!"param: String,"),
  textLine 8 (c!"what: Box<dyn fmt::Debug>,"),
  textLine 4 (c!"}"),
  c!"\n",
  textLine 4 (c!"impl fmt::Debug for Error {"),
  textLine 8 (c!"fn fmt(&self, f: &mut fmt::Formatter) ->" ++ c!" fmt::Result {"),
  textLine 12 (c!"f.debug_struct(\"wayfinder::Error\")"),
  textLine 16 (c!".field(\"param\", &self.param)"),
  textLine 16 (c!".field(\"what\", &self.what)"),
  textLine 16 (c!".finish()"),
  textLine 8 (c!"}"),
  textLine 4 (c!"}"),
  c!"\n",
  textLine 4 (c!"impl fmt::Display for Error {"),
  textLine 8 (c!"fn fmt(&self, f: &mut fmt::Formatter) ->" ++ c!" fmt::Result {"),
  textLine 12 (c!"write!("),
  textLine 16 (c!"f,"),
  textLine 16 (c!"\"Error parsing '{}' parameter {:?}\","),
  textLine 16 (c!"self.param, self.what"),
  textLine 12 (c!")"),
  textLine 8 (c!"}"),
  textLine 4 (c!"}"),
  c!"\n",
  textLine 4 (c!"impl std::error::Error for Error {}"),
  c!"\n",
  textLine 4 (c!"impl Error {"),
  textLine 8 (c!"pub fn fail<S: AsRef<str>, T: fmt::Debug" ++ c!" + 'static>(param: S, what: T) -> Error " ++ c!"{"),
  textLine 12 (c!"Error {"),
  textLine 16 (c!"param: param.as_ref().to_string(),"),
  textLine 16 (c!"what: Box::new(what),"),
  textLine 12 (c!"}"),
  textLine 8 (c!"}"),
  textLine 4 (c!"}"),
  textLine 4 (c!"/// Match a path and method against this" ++ c!" router.")]

/-- `wayfinder-tests/cases/nesting/routes.rs:161-200` -/
def nesting5 : List Str := [
  textLine 4 (c!"///"),
  textLine 4 (c!"/// Accepts a byte slice for the request" ++ c!" path and HTTP verb."),
  textLine 4 (c!"/// Returns a `Result`, usually `Ok` wit" ++ c!"h the result of the"),
  textLine 4 (c!"/// [`Match`]."),
  textLine 4 (c!"///"),
  textLine 4 (c!"/// If the match was successful, it will" ++ c!" be a `Match::Route` or"),
  textLine 4 (c!"/// `Match::Redirect` with the parameter" ++ c!"s enclosed.  You can then"),
  textLine 4 (c!"/// match on the [`Route`] to pass contr" ++ c!"ol of the request along to"),
  textLine 4 (c!"/// a specific handler."),
  textLine 4 (c!"///"),
  textLine 4 (c!"/// If there is no match, this will retu" ++ c!"rn `Match::NotFound`"),
  textLine 4 (c!"/// if no path matches (which you could " ++ c!"return as `404 Not Found`),"),
  textLine 4 (c!"/// or `Match::NotAllowed` if no method " ++ c!"matches (in which case a"),
  textLine 4 (c!"/// `405 Not Allowed` would be appropria" ++ c!"te)."),
  textLine 4 (c!"///"),
  textLine 4 (c!"/// If a route parameter fails to parse " ++ c!"correctly, this will return"),
  textLine 4 (c!"/// `Err` with the underlying parsing er" ++ c!"ror.  Usually you'll want"),
  textLine 4 (c!"/// to send back a `400 Bad Request` for" ++ c!" that."),
  textLine 4 (c!"///"),
  textLine 4 (c!"/// [`Match`]: enum.Match.html"),
  textLine 4 (c!"/// [`Route`]: enum.Route.html"),
  textLine 4 (c!"pub fn match_route<P: AsRef<[u8]>, M: As" ++ c!"Ref<[u8]>>("),
  textLine 8 (c!"path: P,"),
  textLine 8 (c!"method: M,"),
  textLine 4 (c!") -> Result<Match<Route>, Error> {"),
  textLine 8 (c!"let method = method.as_ref();"),
  textLine 8 (c!"let path = path.as_ref();"),
  textLine 8 (c!"let len = path.len();"),
  textLine 8 (c!"let mut i = if len > 0 && &path[0..1] ==" ++ c!" b\"/\" { 1 } else { 0 };"),
  c!"\n",
  textLine 8 (c!"if i == len {"),
  textLine 12 (c!"match method {"),
  textLine 16 (c!"b\"GET\" => return Ok(Match::Route(Route::" ++ c!"Index(Index {"),
  textLine 16 (c!"}))),"),
  textLine 16 (c!"_ => return Ok(Match::NotAllowed),"),
  textLine 12 (c!"}"),
  textLine 8 (c!"}"),
  textLine 8 (c!"let start = i;"),
  c!"\n",
  textLine 8 (c!"while i < len && &path[i..i+1] != b\"/\" {")]

/-- `wayfinder-tests/cases/nesting/routes.rs:201-233` -/
def nesting6 : List Str := [
  textLine 12 (c!"i += 1;"),
  textLine 8 (c!"}"),
  c!"\n",
  textLine 8 (c!"let text = std::str::from_utf8(&path[sta" ++ c!"rt..i]).unwrap();"),
  textLine 8 (c!"let id = text.parse()"),
  textLine 12 (c!".map_err(|e| Error::fail(\"id\", e))?;"),
  c!"\n",
  textLine 8 (c!"if i == len {"),
  textLine 12 (c!"match method {"),
  textLine 16 (c!"b\"GET\" => return Ok(Match::Route(Route::" ++ c!"Admin(admin::Route::People(admin::people" ++ c!"::Route::Show(admin::people::Show {"),
  textLine 20 (c!"id,"),
  textLine 16 (c!"}))))),"),
  textLine 16 (c!"_ => return Ok(Match::NotAllowed),"),
  textLine 12 (c!"}"),
  textLine 8 (c!"}"),
  textLine 8 (c!"match &path[i..i+1] {"),
  textLine 12 (c!"b\"/\" => {"),
  textLine 16 (c!"i += 1;"),
  textLine 12 (c!"},"),
  textLine 12 (c!"_ => return Ok(Match::NotFound),"),
  textLine 8 (c!"}"),
  textLine 8 (c!"if i == len {"),
  textLine 12 (c!"match method {"),
  textLine 16 (c!"b\"GET\" => return Ok(Match::Route(Route::" ++ c!"Admin(admin::Route::People(admin::people" ++ c!"::Route::Show(admin::people::Show {"),
  textLine 20 (c!"id,"),
  textLine 16 (c!"}))))),"),
  textLine 16 (c!"_ => return Ok(Match::NotAllowed),"),
  textLine 12 (c!"}"),
  textLine 8 (c!"}"),
  textLine 8 (c!"return Ok(Match::NotFound);"),
  textLine 4 (c!"}"),
  c!"\n",
  textLine 0 (c!"} // mod routes")]

/-- `wayfinder-tests/cases/nesting/routes.rs` -/
def nestingRs : Str :=
  (nesting1 ++ nesting2 ++ nesting3 ++ nesting4 ++ nesting5 ++ nesting6).flatten

end Wayfinder.Cases
