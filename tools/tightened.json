{
 "pos-nl": {
  "tightened": [
   "C08_line_of_any_tokens"
  ],
  "note": "The lexer never puts a newline inside a name, literal or blank token, so the two C08 theorems about lexed sources are still true of the edited program. The theorem about arbitrary token streams was added; it fails under the edit."
 },
 "lex-hint-low": {
  "note": "The surviving theorem is the witness that the upper bound of the code is wrong, which the edit does not change."
 },
 "dup-any": {
  "tightened": [
   "C29_builder_gets_descriptor",
   "C29_dup_target"
  ],
  "note": "both spoke only about the grammar; restated about the parser's run"
 },
 "num-u8": {
  "tightened": [
   "C29_builder_gets_descriptor",
   "C29_dup_target"
  ],
  "note": "restated about the parser's run instead of the grammar"
 },
 "num-sq": {
  "tightened": [
   "C29_builder_gets_descriptor",
   "C29_dup_target"
  ],
  "note": "restated about the parser's run instead of the grammar"
 }
}