Z="Model.RelPath"; T="RelPath"
m("rp_dotdot",Z,"enter","some cur.dropLast","some cur","C70: realpath ignores '..'",T)
m("rp_dot",Z,"enter","if n = ['.'] then some cur","if n = ['.'] then some (cur ++ [n])","C70: '.' kept as a name",T)
m("rp_link_ignored",Z,"enter","| some t => match depth with","| some _ => some (cur ++ [n])\n      | some t => match depth with","C70: links not resolved",T)
m("rp_link_start",Z,"enter","(if isAbs t then [] else cur)","(if isAbs t then [] else cur ++ [n])","C70: relative link resolved from the link itself instead of its directory",T)
m("rp_link_abs",Z,"enter","(if isAbs t then [] else cur)","cur","C70: absolute link resolved relative to its directory",T)
m("rp_locate_abs",Z,"locate","if isAbs p then [] else cwd","cwd","C70: absolute paths resolved from the working directory",T)
m("rp_locate_cwd",Z,"locate","if isAbs p then [] else cwd","[]","C70: relative paths resolved from the root",T)
m("rp_empty_names",Z,"names","(split p).filter (· ≠ [])","split p","C70: double slashes give empty names",T)
m("rp_common",Z,"common","common l m + 1","common l m","C70: common prefix counted wrongly",T)
m("rp_common_skip",Z,"common","if a = b then common l m + 1 else 0","if a = b then common l m + 1 else common l m","C70: differing names counted into the prefix",T)
m("rp_updirs",Z,"relNames","start.length - common start path","start.length - common start path - 1","C70: one '..' too few",T)
m("rp_updirs_swapped",Z,"relNames","start.length - common start path","path.length - common start path","C70: '..' counted from the path instead of the start",T)
m("rp_no_drop",Z,"relNames","path.drop (common start path)","path","C70: common prefix not dropped",T)
m("rp_rel_empty",Z,"relpath","[] => ['.']","[] => []","C70: the directory itself gets an empty path",T)
m("rp_rel_swapped",Z,"relpath","relNames (names start) (names path)","relNames (names path) (names start)","C70: arguments of relpath swapped",T)
m("rp_not_real",Z,"bankText","(realpath fs cwd (PosixPath.dirname outf)).map (relpath path)","some (relpath path (PosixPath.dirname outf))","C70: relative to the directory as given (links confuse it)",T)
m("rp_file_not_dir",Z,"bankText","PosixPath.dirname outf","outf","C70: relative to the file, not its directory",T)
m("rp_abs_flag",Z,"bankText","if abs then","if !abs then","C70: absolute and relative swapped",T)
m("rp_read_cwd",Z,"bankPath","PosixPath.join (PosixPath.dirname inf) x","x","C70: relative paths read from the working directory",T)
m("rp_read_file",Z,"bankPath","PosixPath.dirname inf","inf","C70: relative paths read from the file itself",T)
m("rp_read_unreal",Z,"bankPath","(realpath fs cwd (PosixPath.join (PosixPath.dirname inf) x)).bind (realpath fs cwd)","some (PosixPath.join (PosixPath.dirname inf) x)","C70: paths not normalised: the same bank gets different paths",T)
