import Verif.Model.Generator

/-!
# Regenerating the headers

`generation/generateAll.sh` and the build rules in `generation/CMakeLists.txt` run the generator on each data file and
write the headers. The scripts are modelled as functions on the files below `tuple-transmission/`. Simplifications: the
data files do not change while the scripts run (no header is written over a data file), the directory names contain
nothing that a shell would take apart, Lua is installed.
-/

namespace TT.Gen

/-- The global variables set at the top of the generator; `none`: not set (`nil`).
Models generation/variadicGenerate.lua:3-7. -/
structure Settings where
  receiveMin : Option Nat
  receiveMax : Option Nat
  sendMin : Option Nat
  sendMax : Option Nat
deriving DecidableEq, Repr

/-- The table a data file returns. `generate` is `none` where the function raises an error.
Models for example generation/PartialHandlerBase.gen.lua:1-88. -/
structure Data where
  outFile : Option Text
  heading : Text
  ending : Text
  minArity : Option Nat
  maxArity : Option Nat
  generate : Nat → Option (List Text)

/-- A data file: what `dofile` gives, depending on the global variables; `none`: an error.
Models generation/variadicGenerate.lua:26 and generation/query.lua:12. -/
abbrev DataFile := Settings → Option Data

/-- `text:format(arg)`, the argument is not there any more (`none`) once it has been used. `none`: an error. Conversions
other than `%s` and `%%` are taken for errors. Models generation/variadicGenerate.lua:28. -/
def format : Text → Option Text → Option Text
  | [], _ => some []
  | c :: t, a =>
    if c = '%' then
      match t, a with
      | 's' :: u, some x => (format u none).map (x ++ ·)
      | '%' :: u, a => (format u a).map ('%' :: ·)
      | _, _ => none
    else (format t a).map (c :: ·)

/-- `tostring(n)`. Models generation/SendOverloads.gen.lua:101. -/
def luaToString : Option Nat → Text
  | none => chars! "nil"
  | some n => decimal n

/-- The generator: what it prints, or `none` if it ends with an error, in which case it has printed nothing, because it
prints at the very end. Models generation/variadicGenerate.lua:13-36. -/
def runGenerator (st : Settings) (d : DataFile) (source : Text) : Option Text := do
  let data ← d st
  let p ← format data.heading (some source)
  let lo ← data.minArity
  let hi ← data.maxArity
  let ls ← (List.range (hi + 1 - lo)).mapM fun i => data.generate (lo + i)
  return cat ([p] ++ ls.flatten ++ [data.ending]) (chars! "\n") ++ chars! "\n"

/-- `query.lua outFile file`: what it prints. The global variables of the generator are not set there.
Models generation/query.lua:1-13. -/
def query (d : DataFile) : Option Text :=
  (d ⟨none, none, none, none⟩).map fun data => data.outFile.getD (chars! "nil") ++ chars! "\n"

/-- A text without the line ends (with `spaces`: without white space) at its end. Models `$(...)` in
generation/generateAll.sh:16 and `OUTPUT_STRIP_TRAILING_WHITESPACE` in generation/CMakeLists.txt:29. -/
def strip (spaces : Bool) : Text → Text
  | [] => []
  | c :: t =>
    match strip spaces t with
    | [] => if c = '\n' ∨ spaces = true ∧ (c = ' ' ∨ c = '\t' ∨ c = '\r') then [] else [c]
    | u => c :: u

/-- The files below `tuple-transmission/` by name; `none`: there is no such file. The `OUTDIR` of
generation/generateAll.sh:5 and generation/CMakeLists.txt:13. -/
abbrev Files := Text → Option Text

/-- A file gets new contents. Models `> "${output}"`, generation/generateAll.sh:21. -/
def Files.set (fs : Files) (path : Text) (t : Text) : Files := fun p => if p = path then some t else fs p

/-- The name of the source in the header. Models generation/generateAll.sh:10,21 and generation/CMakeLists.txt:38. -/
def sourceName (name : Text) : Text := chars! "variadicGenerate.lua on input " ++ name

/-- One run of the generator with its output redirected. The file is emptied before the generator starts; if it cannot be
opened, the generator is not started. The flag tells whether it went well. Models generation/generateAll.sh:21 and
generation/CMakeLists.txt:33-38. -/
def redirect (st : Settings) (writable : Text → Bool) (path name : Text) (d : DataFile) (fs : Files) : Files × Bool :=
  if writable path then
    match runGenerator st d (sourceName name) with
    | none => (fs.set path [], false)
    | some t => (fs.set path t, true)
  else (fs, false)

/-- The loop of the script over the data files (name and file), in the order of the names; `set -e` ends the script when
a command fails. Models generation/generateAll.sh:2,14-24. -/
def generateAll (st : Settings) (writable : Text → Bool) : List (Text × DataFile) → Files → Files × Bool
  | [], fs => (fs, true)
  | (name, d) :: ds, fs =>
    match query d with
    | none => (fs, false)
    | some q =>
      match redirect st writable (strip false q) name d fs with
      | (fs, false) => (fs, false)
      | (fs, true) => generateAll st writable ds fs

/-- The build rules: output file, name of the data file, data file. A data file that cannot be queried gets none.
Models generation/CMakeLists.txt:21-48. -/
def cmakeRules (ds : List (Text × DataFile)) : List (Text × Text × DataFile) :=
  ds.filterMap fun x => (query x.2).map fun q => (strip true q, x.1, x.2)

/-- Building the target `regenerate-headers`: the rules whose output is missing or older than the scripts are carried
out, up to the first failure. Simplification: one after the other. Models generation/CMakeLists.txt:33-53. -/
def cmakeBuild (st : Settings) (writable outdated : Text → Bool) :
    List (Text × Text × DataFile) → Files → Files × Bool
  | [], fs => (fs, true)
  | (path, name, d) :: rs, fs =>
    if outdated path then
      match redirect st writable path name d fs with
      | (fs, false) => (fs, false)
      | (fs, true) => cmakeBuild st writable outdated rs fs
    else cmakeBuild st writable outdated rs fs

namespace ArityConfig

/-- The prefix up to `%s`. Models generation/ArityConfig.gen.lua:33-38. -/
def before : Text :=
    chars! "/** @file\n" ++
    chars! "\t@brief Config header with Fusion limit defines - Must be included before any\n" ++
    chars! "\tFusion header!\n" ++
    chars! "\n" ++
    chars! "\tHeader AUTO-GENERATED by "

/-- The prefix after `%s`. Models generation/ArityConfig.gen.lua:38-77. -/
def after : Text :=
    chars! " to ensure consistency\n" ++
    chars! "\n" ++
    chars! "\tDO NOT EDIT THIS FILE DIRECTLY - instead, edit the script that generates it.\n" ++
    chars! "\tIn this case, this file mostly exists to get constants used when generating\n" ++
    chars! "\t_any_ file into one file to configure support libraries, so the generation\n" ++
    chars! "\tscript shared by all generated files contains the typically-interesting\n" ++
    chars! "\tvalues.\n" ++
    chars! "\n" ++
    chars! "\tNote that only by editing and re-running the generating script can you\n" ++
    chars! "\tchange these limits, since some files are pre-generated instead of\n" ++
    chars! "\tusing BOOST_PP_...\n" ++
    chars! "\n" ++
    chars! "\t@author\n" ++
    chars! "\tRyan Pavlik\n" ++
    chars! "\t<rpavlik@iastate.edu> and <abiryan@ryand.net>\n" ++
    chars! "\thttp://academic.cleardefinition.com/\n" ++
    chars! "\tIowa State University Virtual Reality Applications Center\n" ++
    chars! "\tHuman-Computer Interaction Graduate Program\n" ++
    chars! "*/\n" ++
    chars! "\n" ++
    chars! "//          Copyright Iowa State University 2012.\n" ++
    chars! "// Distributed under the Boost Software License, Version 1.0.\n" ++
    chars! "//    (See accompanying file LICENSE_1_0.txt or copy at\n" ++
    chars! "//          http://www.boost.org/LICENSE_1_0.txt)\n" ++
    chars! "\n" ++
    chars! "#pragma once\n" ++
    chars! "#ifndef INCLUDED_FusionConfig_h_GUID_e185dc4f_3d12_4f22_ae37_ee131be6d12a\n" ++
    chars! "#define INCLUDED_FusionConfig_h_GUID_e185dc4f_3d12_4f22_ae37_ee131be6d12a\n" ++
    chars! "\n" ++
    chars! "// Internal Includes\n" ++
    chars! "// - none\n" ++
    chars! "\n" ++
    chars! "// Library/third-party includes\n" ++
    chars! "// - none\n" ++
    chars! "\n" ++
    chars! "// Standard includes\n" ++
    chars! "// - none\n" ++
    chars! "\n" ++
    chars! "\n"

/-- The suffix. Models generation/ArityConfig.gen.lua:79-82. -/
def suffix : Text :=
    chars! "\n" ++
    chars! "#endif // INCLUDED_FusionConfig_h_GUID_e185dc4f_3d12_4f22_ae37_ee131be6d12a\n"

end ArityConfig

namespace PartialHandler

/-- The prefix up to `%s`. Models generation/PartialHandlerBase.gen.lua:30-32. -/
def before : Text :=
    chars! "/** @file\n" ++
    chars! "\t@brief Header AUTO-GENERATED by "

/-- The prefix after `%s`. Models generation/PartialHandlerBase.gen.lua:32-81. -/
def after : Text :=
    chars! " to avoid doing crazy preprocessor things\n" ++
    chars! "\n" ++
    chars! "\tDO NOT EDIT THIS FILE DIRECTLY - instead, edit the script that generates it.\n" ++
    chars! "\n" ++
    chars! "\t@date 2012\n" ++
    chars! "\n" ++
    chars! "\t@author\n" ++
    chars! "\tRyan Pavlik\n" ++
    chars! "\t<rpavlik@iastate.edu> and <abiryan@ryand.net>\n" ++
    chars! "\thttp://academic.cleardefinition.com/\n" ++
    chars! "\tIowa State University Virtual Reality Applications Center\n" ++
    chars! "\tHuman-Computer Interaction Graduate Program\n" ++
    chars! "*/\n" ++
    chars! "\n" ++
    chars! "//          Copyright Iowa State University 2012.\n" ++
    chars! "// Distributed under the Boost Software License, Version 1.0.\n" ++
    chars! "//    (See accompanying file LICENSE_1_0.txt or copy at\n" ++
    chars! "//          http://www.boost.org/LICENSE_1_0.txt)\n" ++
    chars! "\n" ++
    chars! "#pragma once\n" ++
    chars! "#ifndef INCLUDED_PartialHandlerBase_h_GUID_314b3576_c339_42e9_ac75_cccb9b7f0bfe\n" ++
    chars! "#define INCLUDED_PartialHandlerBase_h_GUID_314b3576_c339_42e9_ac75_cccb9b7f0bfe\n" ++
    chars! "\n" ++
    chars! "// Internal Includes\n" ++
    chars! "#include \"Receiver.h\"\n" ++
    chars! "#include \"ParameterHandlerBase.h\"\n" ++
    chars! "\n" ++
    chars! "// Library/third-party includes\n" ++
    chars! "#include <boost/utility/enable_if.hpp>\n" ++
    chars! "#include <boost/fusion/include/is_sequence.hpp>\n" ++
    chars! "\n" ++
    chars! "// Standard includes\n" ++
    chars! "// - none\n" ++
    chars! "\n" ++
    chars! "namespace transmission {\n" ++
    chars! "\n" ++
    chars! "\t/** @brief Base class for use in creating functors for transmission::Receiver\n" ++
    chars! "\t\tthat provides default handlers for all message types.\n" ++
    chars! "\n" ++
    chars! "\t\tIf you derive your functor from this class, you don't have to provide all\n" ++
    chars! "\t\tthe handlers, and you must include a line like the following in the\n" ++
    chars! "\t\tfunctor to explicitly use the provided defaults:\n" ++
    chars! "\n" ++
    chars! "\t\tusing transmission::PartialHandlerBase<YourClass>::operator();\n" ++
    chars! "\t*/\n" ++
    chars! "\ttemplate<typename Derived>\n" ++
    chars! "\tclass PartialHandlerBase : public ParameterHandlerBase<Derived> {\n" ++
    chars! "\t\tpublic:\n" ++
    chars! "\t\t\tusing ParameterHandlerBase<Derived>::operator();\n"

/-- The suffix. Models generation/PartialHandlerBase.gen.lua:83-88. -/
def suffix : Text :=
    chars! "\t};\n" ++
    chars! "} // end of namespace transmission\n" ++
    chars! "\n" ++
    chars! "#endif // INCLUDED_PartialHandlerBase_h_GUID_314b3576_c339_42e9_ac75_cccb9b7f0bfe\n"

end PartialHandler

namespace SendOverloads

/-- The prefix up to `%s`. Models generation/SendOverloads.gen.lua:49-51. -/
def before : Text :=
    chars! "/** @file\n" ++
    chars! "\t@brief Header AUTO-GENERATED by "

/-- The prefix after `%s` up to the arity. Models generation/SendOverloads.gen.lua:51-101. -/
def after : Text :=
    chars! " to avoid doing crazy preprocessor things\n" ++
    chars! "\n" ++
    chars! "\tDO NOT EDIT THIS FILE DIRECTLY - instead, edit the script that generates it.\n" ++
    chars! "\n" ++
    chars! "        @date 2012\n" ++
    chars! "\n" ++
    chars! "        @author\n" ++
    chars! "        Ryan Pavlik\n" ++
    chars! "        <rpavlik@iastate.edu> and <abiryan@ryand.net>\n" ++
    chars! "        http://academic.cleardefinition.com/\n" ++
    chars! "        Iowa State University Virtual Reality Applications Center\n" ++
    chars! "        Human-Computer Interaction Graduate Program\n" ++
    chars! "*/\n" ++
    chars! "\n" ++
    chars! "//          Copyright Iowa State University 2012.\n" ++
    chars! "// Distributed under the Boost Software License, Version 1.0.\n" ++
    chars! "//    (See accompanying file LICENSE_1_0.txt or copy at\n" ++
    chars! "//          http://www.boost.org/LICENSE_1_0.txt)\n" ++
    chars! "\n" ++
    chars! "#pragma once\n" ++
    chars! "#ifndef INCLUDED_SendOverloads_Generated_h_GUID_ceb4f589_526e_49d7_84c5_0b38f6d1fc42\n" ++
    chars! "#define INCLUDED_SendOverloads_Generated_h_GUID_ceb4f589_526e_49d7_84c5_0b38f6d1fc42\n" ++
    chars! "\n" ++
    chars! "// Internal Includes\n" ++
    chars! "#include \"../constants/ArityConfig.h\"\n" ++
    chars! "#include \"MessageArity.h\"\n" ++
    chars! "#include \"../bases/TransmitterBase_fwd.h\"\n" ++
    chars! "\n" ++
    chars! "// Library/third-party includes\n" ++
    chars! "#include <boost/fusion/include/make_list.hpp>\n" ++
    chars! "#include <boost/mpl/size.hpp>\n" ++
    chars! "#include <boost/mpl/int.hpp>\n" ++
    chars! "#include <boost/mpl/at.hpp>\n" ++
    chars! "#include <boost/mpl/equal.hpp>\n" ++
    chars! "#include <boost/utility/enable_if.hpp>\n" ++
    chars! "\n" ++
    chars! "// Standard includes\n" ++
    chars! "// - none\n" ++
    chars! "\n" ++
    chars! "namespace transmission {\n" ++
    chars! "\t// Forward-declare the main send function that we'll invoke after making a fusion sequence\n" ++
    chars! "\ttemplate<typename Collection, typename Message, typename TransmitterDerived, typename MessageContentsType>\n" ++
    chars! "\tvoid send(transmitters::TransmitterBase<TransmitterDerived> & tx, MessageContentsType const & contents);\n" ++
    chars! "\n" ++
    chars! "\tnamespace detail {\n" ++
    chars! "\t\tnamespace operations {\n" ++
    chars! "\t\t\tnamespace generated {\n" ++
    chars! "\t\t\t\tnamespace mpl = boost::mpl;\n" ++
    chars! "\t\t\t\tnamespace fusion = boost::fusion;\n" ++
    chars! "\t\t\t\tusing boost::enable_if;\n" ++
    chars! "\t\t\t\ttypedef mpl::int_<"

/-- The prefix after the arity. Models generation/SendOverloads.gen.lua:101-103. -/
def afterArity : Text :=
    chars! "> SendOverloadMaxArity;\n" ++
    chars! "\n"

/-- The suffix. Models generation/SendOverloads.gen.lua:105-113. -/
def suffix : Text :=
    chars! "\t\t\t} // end of namespace generated\n" ++
    chars! "\t\t} // end of namespace operations\n" ++
    chars! "\t} // end of namespace detail\n" ++
    chars! "\n" ++
    chars! "\tusing detail::operations::generated::send;\n" ++
    chars! "} // end of namespace transmission\n" ++
    chars! "#endif // INCLUDED_SendOverloads_Generated_h_GUID_ceb4f589_526e_49d7_84c5_0b38f6d1fc42\n"

end SendOverloads

/-- The data file for the limits. Models generation/ArityConfig.gen.lua:1-83. -/
def arityConfigFile : DataFile := fun st => some
  { outFile := some (chars! "detail/constants/ArityConfig.h")
    heading := ArityConfig.before ++ chars! "%s" ++ ArityConfig.after
    ending := ArityConfig.suffix
    minArity := some 0
    maxArity := some 0
    generate := fun _ => do
      let s ← st.sendMax
      let r ← st.receiveMax
      return ArityConfig.generate s r }

/-- The data file for the partial handlers. Models generation/PartialHandlerBase.gen.lua:1-89. -/
def partialHandlerFile : DataFile := fun st => some
  { outFile := some (chars! "PartialHandlerBase.h")
    heading := PartialHandler.before ++ chars! "%s" ++ PartialHandler.after
    ending := PartialHandler.suffix
    minArity := st.receiveMin
    maxArity := st.receiveMax
    generate := fun arity => some (PartialHandler.generate arity) }

/-- The data file for the overloads of `send`. Models generation/SendOverloads.gen.lua:20-114. -/
def sendOverloadsFile : DataFile := fun st => some
  { outFile := some (chars! "detail/operations/SendOverloads_Generated.h")
    heading := SendOverloads.before ++ chars! "%s" ++ SendOverloads.after ++ luaToString st.sendMax ++
      SendOverloads.afterArity
    ending := SendOverloads.suffix
    minArity := st.sendMin
    maxArity := st.sendMax
    generate := fun arity => some (SendOverloads.generate arity) }

/-- The data files, in the order of their names. Models `*.gen.lua`, generation/generateAll.sh:14, and
generation/CMakeLists.txt:3-6. -/
def dataFiles : List (Text × DataFile) :=
  [ (chars! "ArityConfig.gen.lua", arityConfigFile),
    (chars! "PartialHandlerBase.gen.lua", partialHandlerFile),
    (chars! "SendOverloads.gen.lua", sendOverloadsFile) ]

/-- The settings as they are. Models generation/variadicGenerate.lua:3-7. -/
def settings : Settings := ⟨some 0, some 9, some 0, some 9⟩

end TT.Gen
